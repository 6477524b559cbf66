import Verif.CppStmtRead
import Verif.StmtRun
import Verif.CgTop

/-!
# C93: the expressions in the text of statements

What the conditions, steps and values in the text of statements do (from C92).
-/

namespace Verif.StmtEval

open Verif.CgText Verif.CgExpr Verif.CgStmt Verif.CppGram Verif.CgMean Verif.CppStmt Verif.StmtRun Verif.CgTree

variable {W : World}

/-- The evaluation does what `f` does, seen through `view`. -/
def DM {α : Type} (d : D W CVal) (view : CVal → α) (f : M W α) : Prop :=
  ∀ (s : W.σ) (τ : Nat → CVal), (∃ r, d (s, τ) r) ∧ ∀ r, d (s, τ) r → (r.map fun y => (view y.1, y.2.1)) = f s

/-- The text does. -/
def Ev {α : Type} (t : List Sym) (view : CVal → α) (f : M W α) : Prop := DM (evalT t) view f

theorem evalT_of {t : List Sym} {c : C} (h : ReadsAs t c) : (evalT t : D W CVal) = den c := by
  funext st r
  apply propext
  constructor
  · rintro ⟨c', h', hr⟩
    cases h.unique h'
    exact hr
  · intro hr
    exact ⟨c, h, hr⟩

theorem ev_of {α : Type} {t : List Sym} {c : C} {view : CVal → α} {f : M W α} (h : ReadsAs t c) (hd : DM (den c) view f) :
    Ev t view f := by unfold Ev; rw [evalT_of h]; exact hd

theorem ev_means {α : Type} {t : List Sym} {view : CVal → α} {f : M W α} (h : Means W t view f) : Ev t view f := by
  obtain ⟨c, hc, hd⟩ := h
  exact ev_of hc hd

theorem DM.seq {α : Type} {d e : D W CVal} {f : M W Unit} {view : CVal → α} {g : M W α}
    (h : DM d (fun _ => ()) f) (h' : DM e view g) :
    DM (D.seq d fun _ => e) view (fun s => (f s).bind fun x => g x.2) := by
  intro s τ
  obtain ⟨⟨r, hr⟩, hall⟩ := h s τ
  constructor
  · cases r with
    | none => exact ⟨none, none, hr, rfl⟩
    | some y => obtain ⟨⟨r2, hr2⟩, _⟩ := h' y.2.1 y.2.2; exact ⟨r2, some y, hr, hr2⟩
  · rintro r2 ⟨r1, hr1, h2⟩
    have e1 := hall r1 hr1
    show _ = (f s).bind _
    rw [← e1]
    cases r1 with
    | none => cases h2; rfl
    | some y => exact (h' y.2.1 y.2.2).2 r2 h2

/-- what is seen of a value -/
theorem DM.weaken {α β : Type} {d : D W CVal} {view : CVal → α} {f : M W α} (h : DM d view f) (p : α → β) :
    DM d (fun c => p (view c)) (fun s => (f s).map fun x => (p x.1, x.2)) := by
  intro s τ
  refine ⟨(h s τ).1, fun r hr => ?_⟩
  have := (h s τ).2 r hr
  show _ = (f s).map _
  rw [← this]
  cases r <;> rfl

/-! ## Lists of conditions -/

theorem typedL_all {l : List N} (h : ∀ x ∈ l, Typed W x) : TypedL W l := by
  induction l with
  | nil => simp [TypedL]
  | cons a l ih => rw [TypedL]; exact ⟨h a (List.mem_cons_self ..), ih fun x hx => h x (List.mem_cons_of_mem _ hx)⟩

theorem shapeL_all {l : List N} (h : ∀ x ∈ l, shape x = true) : shapeL l = true := by
  induction l with
  | nil => simp [shapeL]
  | cons a l ih =>
      rw [shapeL, h a (List.mem_cons_self ..), ih fun x hx => h x (List.mem_cons_of_mem _ hx)]; rfl

theorem allTrue_run (l : List N) (h : l ≠ []) (s : W.σ) :
    allTrue W l s = (runAnd W l s).map fun x => (truth W x.1, x.2) := by
  induction l generalizing s with
  | nil => exact absurd rfl h
  | cons a l ih =>
      cases l with
      | nil =>
          simp only [allTrue, runAnd]
          cases run W a s with
          | none => rfl
          | some x => cases hx : truth W x.1 <;> simp [hx]
      | cons b l =>
          rw [allTrue, runAnd]
          rotate_left
          · simp
          cases run W a s with
          | none => rfl
          | some x =>
              cases hx : truth W x.1 with
              | true => simpa [hx] using ih (by simp) x.2
              | false => simp [hx]

theorem anyTrue_run (l : List N) (h : l ≠ []) (s : W.σ) :
    anyTrue W l s = (runOr W l s).map fun x => (truth W x.1, x.2) := by
  induction l generalizing s with
  | nil => exact absurd rfl h
  | cons a l ih =>
      cases l with
      | nil =>
          simp only [anyTrue, runOr]
          cases run W a s with
          | none => rfl
          | some x => cases hx : truth W x.1 <;> simp [hx]
      | cons b l =>
          rw [anyTrue, runOr]
          rotate_left
          · simp
          cases run W a s with
          | none => rfl
          | some x =>
              cases hx : truth W x.1 with
              | false => simpa [hx] using ih (by simp) x.2
              | true => simp [hx]

theorem byteOp_narrow {e : N} (h : byteOp e = false) : narrow e = false := h

/-- a condition -/
theorem ev_cond {e : N} (h : okC W e) (m : Mode) (k : Nat) :
    Ev (text (cg m e k).1) (ctruth W) (fun s => (run W e s).map fun x => (truth W x.1, x.2)) :=
  ev_means (condition_emitted_partial W e h.1.1 h.1.2 m (byteOp_narrow h.2) k)

/-- an expression for its effect -/
theorem ev_stmt {e : N} (h : okX W e) (m : Mode) (k : Nat) :
    Ev (text (cg m e k).1) (fun _ => ()) (fun s => (run W e s).map fun x => ((), x.2)) :=
  ev_means (stmt_emitted_partial W e h.1 h.2 m k)

/-- a value that is returned -/
theorem ev_ret {e : N} (h : okX W e) (m : Mode) (k : Nat) :
    Ev (text (cg m e k).1) (conv W e.ty) (fun s => (run W e s).map fun x => (some x.1, x.2)) :=
  ev_means (return_emitted_partial W e h.1 h.2 m k)

/-- the conditions of an `&&` -/
theorem ev_and {cs : List N} (hne : cs ≠ []) (h : ∀ c ∈ cs, okC W c) (k : Nat) :
    Ev (text (conds .andand cs k).1) (ctruth W) (allTrue W cs) := by
  have e : allTrue W cs = fun s => (runAnd W cs s).map fun x => (truth W x.1, x.2) := funext (allTrue_run cs hne)
  rw [e]
  match cs, hne, h with
  | [c], _, h => exact ev_cond (h c (List.mem_cons_self ..)) _ k
  | c :: c' :: r, _, h =>
      have h1 : okC W (.and .bool (c :: c' :: r)) := by
        refine ⟨⟨?_, ?_⟩, rfl⟩
        · rw [shape, shapeL_all (fun x hx => (h x hx).1.1)]; simp
        · rw [Typed]; exact ⟨by simp, typedL_all (fun x hx => (h x hx).1.2), by simp⟩
      have := ev_cond h1 { parens := true } k
      rw [cg, if_pos rfl] at this
      refine Eq.mp ?_ this
      congr 1
      funext s
      rw [CgMean.run]
      cases runAnd W (c :: c' :: r) s <;> rfl

theorem conds_two (o : Op) (c c' : N) (r : List N) (k : Nat) :
    conds o (c :: c' :: r) k = cgConcat {} o (c :: c' :: r) k := rfl

/-- the conditions of an `||`, negated -/
theorem ev_or {cs : List N} (hne : cs ≠ []) (h : ∀ c ∈ cs, okC W c) (k : Nat) :
    Ev (text (op .bang ++ paren (conds .oror cs k).1)) (ctruth W) (fun s => (anyTrue W cs s).map fun x => (!x.1, x.2)) := by
  match cs, hne, h with
  | [c], _, h =>
      have hc := h c (List.mem_cons_self ..)
      have hr := rd _ c (Nat.lt_succ_self _) hc.1.1 { parens := true } k
      have hread : ReadsAs (text (op .bang ++ paren (conds .oror [c] k).1)) (.un .bang (tr { parens := true } c k)) := by
        refine ⟨_, lex_pieces _ (good_bang (good_paren hr.good)).fine, ?_⟩
        have := expr_assign _ ((pu_prefix .bang rfl (pp_paren hr.pa).pu).pa [] rfl) rfl
        rw [List.append_nil] at this
        exact this
      refine ev_of hread ?_
      intro s τ
      have hd := ev_cond hc { parens := true } k
      unfold Ev at hd
      rw [evalT_of (cg_reads _ c k hc.1.1)] at hd
      obtain ⟨⟨r, hr⟩, hall⟩ := hd s τ
      have hden : ∀ r', den (W := W) (.un .bang (tr { parens := true } c k)) (s, τ) r' ↔
          ∃ r1, den (tr { parens := true } c k) (s, τ) r1 ∧ r' = r1.map fun y => (.v (.bool (!ctruth W y.1)), y.2) := by
        intro r'
        rw [den.eq_def]
        dsimp only
        rw [if_neg (by decide)]
        constructor
        · rintro ⟨r1, h1, h2⟩
          refine ⟨r1, h1, ?_⟩
          cases r1 with
          | none => exact h2
          | some y => exact h2
        · rintro ⟨r1, h1, h2⟩
          refine ⟨r1, h1, ?_⟩
          cases r1 with
          | none => exact h2
          | some y => exact h2
      constructor
      · exact ⟨_, (hden _).2 ⟨r, hr, rfl⟩⟩
      · intro r' hr'
        obtain ⟨r1, h1, rfl⟩ := (hden _).1 hr'
        have := hall r1 h1
        show _ = (anyTrue W [c] s).map _
        rw [anyTrue_run [c] (by simp), runOr]
        have this : _ = (CgMean.run W c s).map _ := this
        rw [← this]
        cases r1 <;> rfl
  | c :: c' :: r, _, h =>
      have h0 : okC W (.or .bool (c :: c' :: r)) := by
        refine ⟨⟨?_, ?_⟩, rfl⟩
        · rw [shape, shapeL_all (fun x hx => (h x hx).1.1)]; simp
        · rw [Typed]; exact ⟨by simp, by rw [if_pos rfl]; exact typedL_all (fun x hx => (h x hx).1.2)⟩
      have h1 : okC W (.not (.or .bool (c :: c' :: r))) := by
        refine ⟨⟨?_, ?_⟩, rfl⟩
        · rw [shape]; exact h0.1.1
        · rw [Typed]; exact h0.1.2
      have := ev_cond h1 {} k
      rw [cg, cg, if_pos rfl] at this
      refine Eq.mp ?_ this
      congr 1
      funext s
      rw [CgMean.run, CgMean.run, anyTrue_run _ (by simp)]
      cases runOr W (c :: c' :: r) s <;> rfl

/-! ## The steps of a loop -/

/-- One after the other. -/
def runAll (W : World) : List N → M W Unit
  | [], s => some ((), s)
  | e :: r, s => (run W e s).bind fun x => runAll W r x.2

theorem steps_run (l : List N) (k : W.σ → Out W.σ) (s : W.σ) :
    steps W l k s = andThen (runAll W l s) fun _ s' => k s' := by
  induction l generalizing s with
  | nil => rfl
  | cons e l ih =>
      rw [steps, runAll]
      cases run W e s with
      | none => rfl
      | some x => exact ih x.2

theorem all2_texts {l : List N} (h : ∀ e ∈ l, shape e = true) (k : Nat) : All2 (texts {} l k) (trL {} l k) := by
  induction l generalizing k with
  | nil => simp only [texts, trL]; exact .nil
  | cons e l ih =>
      simp only [texts, trL]
      have hr := rd _ e (Nat.lt_succ_self _) (h e (List.mem_cons_self ..)) {} k
      exact .cons hr.good hr.pa (ih (fun x hx => h x (List.mem_cons_of_mem _ hx)) _)

/-- the tree of a comma list -/
def commaC : List C → C
  | [] => .w .fals
  | c :: r => r.foldl .comma c

theorem pa_comma {l : List Text} {cs : List C} (h : All2 l cs) (hne : l ≠ []) :
    Good (comma l) ∧ PA (comma l) (commaC cs) := by
  cases h with
  | nil => exact absurd rfl hne
  | @cons s c l cs hg hp hl =>
      cases hl with
      | nil => exact ⟨hg, hp⟩
      | @cons s' c' l cs hg' hp' hl =>
          have h2 : All2 (s' :: l) (c' :: cs) := .cons hg' hp' hl
          refine ⟨good_paren (good_join _ (by simp) (All2.good (.cons hg hp h2))), ?_⟩
          refine PU.pa (PP.pu ?_)
          intro rest r hr
          have e : toks (paren (commaJoin (s :: s' :: l))) ++ rest =
              .op .lpar :: (toks s ++ (.op .comma :: (toks (commaJoin (s' :: l)) ++ (.op .rpar :: rest)))) := by
            simp [commaJoin, paren, op, toks_append, toks]
          rw [show comma (s :: s' :: l) = paren (commaJoin (s :: s' :: l)) from rfl, e]
          refine unary_paren _ _ rest ?_ hr
          exact expr_of _ (hp _ rfl) (commas_list h2 (by simp) c _ rfl)

theorem dm_stmt {e : N} (h : okX W e) (m : Mode) (k : Nat) :
    DM (den (tr m e k)) (fun _ => ()) (fun s => (run W e s).map fun x => ((), x.2)) := by
  have := ev_stmt h m k
  unfold Ev at this
  rwa [evalT_of (cg_reads _ e k h.1)] at this

theorem dm_cond {e : N} (h : okC W e) (m : Mode) (k : Nat) :
    DM (den (tr m e k)) (ctruth W) (fun s => (run W e s).map fun x => (truth W x.1, x.2)) := by
  have := ev_cond h m k
  unfold Ev at this
  rwa [evalT_of (cg_reads _ e k h.1.1)] at this

theorem den_comma (a b : C) : den (W := W) (.comma a b) = D.seq (den a) fun _ => den b := by rw [den]

theorem dm_fold {l : List N} (h : ∀ e ∈ l, okX W e) (k : Nat) (a : C) (f : M W Unit) (ha : DM (den a) (fun _ => ()) f) :
    DM (den ((trL {} l k).foldl .comma a)) (fun _ => ()) (fun s => (f s).bind fun x => runAll W l x.2) := by
  induction l generalizing k a f with
  | nil =>
      simp only [trL, List.foldl_nil, runAll]
      intro s τ
      refine ⟨(ha s τ).1, fun r hr => ?_⟩
      rw [(ha s τ).2 r hr]
      show _ = (f s).bind _
      cases f s <;> rfl
  | cons e l ih =>
      simp only [trL, List.foldl_cons]
      have h1 : DM (den (.comma a (tr {} e k))) (fun _ => ()) (fun s => (f s).bind fun x => (run W e x.2).map fun y => ((), y.2)) := by
        rw [den_comma]
        exact ha.seq (dm_stmt (h e (List.mem_cons_self ..)) {} k)
      have := ih (fun x hx => h x (List.mem_cons_of_mem _ hx)) (cg {} e k).2 _ _ h1
      refine Eq.mp ?_ this
      congr 1
      funext s
      cases f s with
      | none => rfl
      | some x =>
          simp only [Option.bind, runAll]
          cases run W e x.2 <;> rfl

theorem dm_comma {l : List N} (hne : l ≠ []) (h : ∀ e ∈ l, okX W e) (k : Nat) :
    DM (den (commaC (trL {} l k))) (fun _ => ()) (runAll W l) := by
  cases l with
  | nil => exact absurd rfl hne
  | cons e l =>
      simp only [trL, commaC]
      have := dm_fold (fun x hx => h x (List.mem_cons_of_mem _ hx)) (cg {} e k).2 _ _ (dm_stmt (h e (List.mem_cons_self ..)) {} k)
      refine Eq.mp ?_ this
      congr 1
      funext s
      simp only [runAll]
      cases run W e s <;> rfl

theorem texts_ne {l : List N} (hne : l ≠ []) (m : Mode) (k : Nat) : texts m l k ≠ [] := by
  cases l with
  | nil => exact absurd rfl hne
  | cons e l => simp [texts]

/-- the step of a loop -/
theorem ev_steps {l : List N} (hne : l ≠ []) (h : ∀ e ∈ l, okX W e) (k : Nat) :
    Ev (text (comma (texts {} l k))) (fun _ => ()) (runAll W l) := by
  obtain ⟨hg, hp⟩ := pa_comma (all2_texts (fun e he => (h e he).1) k) (texts_ne hne {} k)
  refine ev_of ⟨_, lex_pieces _ hg.fine, ?_⟩ (dm_comma hne h k)
  have := expr_assign _ (hp [] rfl) rfl
  rw [List.append_nil] at this
  exact this

/-- the condition of `do … while`, after the steps -/
theorem ev_stepCond {l : List N} (h : ∀ e ∈ l, okX W e) {c : N} (hc : okC W c) (k k' : Nat) :
    Ev (stepCond l k (cg {} c k').1) (ctruth W)
      (fun s => (runAll W l s).bind fun x => (run W c x.2).map fun y => (truth W y.1, y.2)) := by
  unfold stepCond
  cases l with
  | nil => exact ev_cond hc {} k'
  | cons e l =>
      rw [if_neg (by simp)]
      obtain ⟨hg, hp⟩ := pa_comma (all2_texts (fun e he => (h e he).1) k) (texts_ne (by simp) {} k)
      have hr := rd _ c (Nat.lt_succ_self _) hc.1.1 {} k'
      refine ev_of (c := .comma (commaC (trL {} (e :: l) k)) (tr {} c k')) ⟨_, lex_pieces _ (good_comma hg hr.good).fine, ?_⟩ ?_
      · have := expr_of (r := (.comma (commaC (trL {} (e :: l) k)) (tr {} c k'), []))
          (toks (comma (texts {} (e :: l) k) ++ [.op .comma, .sp] ++ (cg {} c k').1) ++ [])
          (by rw [toks_comma]; exact hp _ rfl)
          (commas_comma _ _ (hr.pa [] rfl) (commas_stop _ _ rfl))
        rw [List.append_nil] at this
        exact this
      · rw [den_comma]
        exact (dm_comma (by simp) h k).seq (dm_cond hc {} k')

end Verif.StmtEval
