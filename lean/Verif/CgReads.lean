import Verif.CgTree

/-!
# C92: the text of every expression of the shape is read as its tree
-/

namespace Verif.CgTree

open Verif.CgText Verif.CgExpr Verif.CppGram

/-- Whoever asked has not put parentheses. -/
def closed (m : Mode) : Prop := m.stmt = false ∧ m.parens = false

theorem closed_pass (m : Mode) : closed m.pass := ⟨rfl, rfl⟩
theorem closed_empty : closed {} := ⟨rfl, rfl⟩
theorem closed_arg : closed argMode := ⟨rfl, rfl⟩

/-- How the text of a node in a mode is read. -/
structure Rd (m : Mode) (e : N) (s : Text) (c : C) : Prop where
  good : Good s
  pa : PA s c
  pu : closed m → PU s c
  pp : closed m → suffixable m e = true → PP s c
  hd : closed m → ∀ o, s.head? = some (.op o) → o = .lpar ∨ lead m e = some o

/-- of a text to which suffixes can be put in every mode -/
theorem Rd.of_pp {m : Mode} {e : N} {s : Text} {c : C} (hg : Good s) (hp : PP s c)
    (hh : ∀ o, s.head? = some (.op o) → o = .lpar ∨ lead m e = some o) : Rd m e s c :=
  ⟨hg, hp.pu.pa, fun _ => hp.pu, fun _ _ => hp, fun _ => hh⟩

theorem head_nm (a : Word) (s : Text) {P : Op → Prop} : ∀ o, (nm a ++ s).head? = some (.op o) → P o := by
  intro o h; cases h

theorem head_paren {m : Mode} {e : N} (s : Text) : ∀ o, (paren s).head? = some (.op o) → o = .lpar ∨ lead m e = some o := by
  intro o h; cases h; exact Or.inl rfl

/-! ## Temporaries -/

theorem good_copy {s : Text} (m : Mode) (t : Ty) (h : Good s) : Good (cgCopy m t s) := by
  unfold cgCopy; split
  · exact h
  · exact good_cast t h

theorem pp_copy {s : Text} {c : C} (m : Mode) (t : Ty) (hg : Good s) (h : PP s c) : PP (cgCopy m t s) (copyC m t c) := by
  unfold cgCopy copyC; split
  · exact h
  · exact pp_cast t hg h.pu.pa

theorem good_consume (m : Mode) (t : Ty) (id : Nat) : Good (consume m t id) := by
  unfold consume cgMove; split
  · exact good_copy m t (good_nm _)
  · exact good_name_paren _ (good_paren (good_nm _))

theorem pp_consume (m : Mode) (t : Ty) (id : Nat) : PP (consume m t id) (consumeC m t id) := by
  unfold consume cgMove consumeC moveC; split
  · exact pp_copy m t (good_nm _) (pp_nm _)
  · exact pp_call1 _ (good_nm _) (pp_nm _).pu.pa

theorem good_init {s : Text} (id : Nat) (h : Good s) : Good (init id s) := good_sop .asg (good_nm _) h

theorem pa_init {s : Text} {c : C} (id : Nat) (h : PA s c) : PA (init id s) (initC id c) :=
  pa_asg _ .asg rfl h

theorem copyNode_omit {m : Mode} {t : Ty} (s : Text) (h : omits m t = true) : cgCopyNode m t s = s := by
  unfold omits at h
  unfold cgCopyNode cgCopy
  split
  · rfl
  · rename_i hr
    rw [if_pos]
    simpa [hr] using h

theorem copyNode_keep {m : Mode} {t : Ty} (s : Text) (h : omits m t = false) : cgCopyNode m t s = cast t s := by
  unfold omits at h
  simp only [Bool.or_eq_false_iff] at h
  unfold cgCopyNode cgCopy
  rw [if_neg (by rw [h.1]; decide), if_neg (by rw [h.2]; decide)]

theorem copyNodeC_omit {m : Mode} {t : Ty} (c : C) (h : omits m t = true) : copyNodeC m t c = c := by
  unfold omits at h
  unfold copyNodeC copyC
  split
  · rfl
  · rename_i hr
    rw [if_pos]
    simpa [hr] using h

theorem copyNodeC_keep {m : Mode} {t : Ty} (c : C) (h : omits m t = false) : copyNodeC m t c = castC t c := by
  unfold omits at h
  simp only [Bool.or_eq_false_iff] at h
  unfold copyNodeC copyC
  rw [if_neg (by rw [h.1]; decide), if_neg (by rw [h.2]; decide)]

theorem chain_text : (e : N) → chain e = true → Good (chainText e) ∧ PP (chainText e) (chainC e)
  | .var _ x, _ => ⟨good_nm _, pp_nm _⟩
  | .fld _ e f, h => by
      obtain ⟨hg, hp⟩ := chain_text e (by simpa [chain] using h)
      exact ⟨good_dot _ hg, pp_dot _ hp⟩
  | .num _ _, h => by simp [chain] at h
  | .flag _, h => by simp [chain] at h
  | .call _ _ _ _, h => by simp [chain] at h
  | .un _ _ _, h => by simp [chain] at h
  | .bin _ _ _ _ _, h => by simp [chain] at h
  | .asg _ _ _ _, h => by simp [chain] at h
  | .pre _ _ _, h => by simp [chain] at h
  | .post _ _ _, h => by simp [chain] at h
  | .not _, h => by simp [chain] at h
  | .ite _ _ _ _, h => by simp [chain] at h
  | .and _ _, h => by simp [chain] at h
  | .or _ _, h => by simp [chain] at h
  | .copy _ _, h => by simp [chain] at h

theorem pa_copyNode {s : Text} {c : C} (m : Mode) (t : Ty) (hg : Good s) (hp : PP s c) :
    Good (cgCopyNode m t s) ∧ PA (cgCopyNode m t s) (copyNodeC m t c) := by
  cases h : omits m t with
  | true => rw [copyNode_omit s h, copyNodeC_omit c h]; exact ⟨hg, hp.pu.pa⟩
  | false => rw [copyNode_keep s h, copyNodeC_keep c h]; exact ⟨good_cast t hg, (pp_cast t hg hp.pu.pa).pu.pa⟩

/-- What `via` writes is a condition and a value. -/
theorem via_reads (m : Mode) (t : Ty) (tv : Option Nat) (x : N) {s : Text} {c : C} (k : Nat)
    (hg : Good s) (hp : PU s c) :
    ∃ sc ss, (via m t tv x s k).1 = test sc ss ∧ Good sc ∧ PU sc (viaC m t tv x c k).1 ∧
      Good ss ∧ PA ss (viaC m t tv x c k).2 := by
  have temp : ∃ sc ss, (via.viaTemp m t tv s k).1 = test sc ss ∧ Good sc ∧ PU sc (initC (tv.getD k) c) ∧
      Good ss ∧ PA ss (consumeC m t (tv.getD k)) :=
    ⟨paren (init (tv.getD k) s), consume m t (tv.getD k), rfl, good_paren (good_init _ hg),
      (pp_paren (pa_init _ hp.pa)).pu, good_consume _ _ _, (pp_consume _ _ _).pu.pa⟩
  unfold via viaC
  by_cases hx : chain x = true
  · rw [if_pos hx, if_pos hx]
    exact ⟨s, s, rfl, hg, hp, hg, hp.pa⟩
  · rw [if_neg hx, if_neg hx]
    cases x with
    | copy t' e =>
        dsimp only
        by_cases he : chain e = true
        · rw [if_pos he, if_pos he]
          obtain ⟨hcg, hcp⟩ := chain_text e he
          obtain ⟨h1, h2⟩ := pa_copyNode m t' hcg hcp
          exact ⟨_, _, rfl, hcg, hcp.pu, h1, h2⟩
        · rw [if_neg he, if_neg he]
          exact temp
    | _ => exact temp

/-! ## Lists -/

theorem concat_reads (o : Op) {q : Nat} (ho : level o = some q) :
    (l : List N) → (∀ x ∈ l, ∀ k, Rd {} x (cg {} x k).1 (tr {} x k)) → l ≠ [] → ∀ k,
      Good (cgConcat {} o l k).1 ∧
      ∀ (p : Nat), p ≤ q → ∀ (acc : C) (rest : List Tok), stopBinary p rest = true →
        Gets (fun n => operators n p acc (.op o :: (toks (cgConcat {} o l k).1 ++ rest)))
          ((trL {} l k).foldl (.bin o) acc, rest)
  | [], _, hne, _ => absurd rfl hne
  | [x], H, _, k => by
      have h := H x (List.mem_singleton.2 rfl) k
      refine ⟨h.good, ?_⟩
      intro p hpq acc rest hr
      refine operators_op p q acc o ho hpq _ (x := (tr {} x k, rest)) ?_ (operators_stop p _ rest hr)
      exact binary_unary _ _ (h.pu closed_empty rest (stopBinary_suffix hr)) (stopBinary_mono (by omega) hr)
  | x :: y :: r, H, _, k => by
      have h := H x (List.mem_cons_self ..) k
      obtain ⟨hg, hp⟩ := concat_reads o ho (y :: r) (fun z hz => H z (List.mem_cons_of_mem _ hz)) (by simp) (cg {} x k).2
      refine ⟨good_sop o h.good hg, ?_⟩
      intro p hpq acc rest hr
      have e : toks (cgConcat {} o (x :: y :: r) k).1 ++ rest =
          toks (cg {} x k).1 ++ (.op o :: (toks (cgConcat {} o (y :: r) (cg {} x k).2).1 ++ rest)) :=
        toks_sop _ _ o rest
      rw [e]
      have hs : stopBinary (q + 1) (.op o :: (toks (cgConcat {} o (y :: r) (cg {} x k).2).1 ++ rest)) = true := by
        simp only [stopBinary, ho, Bool.and_eq_true, decide_eq_true_eq]
        exact ⟨stop_level ho _, by omega⟩
      refine operators_op p q acc o ho hpq _ (x := (tr {} x k, _))
        (binary_unary _ _ (h.pu closed_empty _ (stopBinary_suffix hs)) hs) ?_
      exact hp p hpq _ rest hr

theorem concat_pb (o : Op) {q : Nat} (ho : level o = some q) (x y : N) (r : List N)
    (H : ∀ z ∈ x :: y :: r, ∀ k, Rd {} z (cg {} z k).1 (tr {} z k)) (k : Nat) :
    Good (cgConcat {} o (x :: y :: r) k).1 ∧
      PB (cgConcat {} o (x :: y :: r) k).1 (joinC o (trL {} (x :: y :: r) k)) := by
  have h := H x (List.mem_cons_self ..) k
  obtain ⟨hg, hp⟩ := concat_reads o ho (y :: r) (fun z hz => H z (List.mem_cons_of_mem _ hz)) (by simp) (cg {} x k).2
  refine ⟨good_sop o h.good hg, ?_⟩
  intro rest hr
  have e : toks (cgConcat {} o (x :: y :: r) k).1 ++ rest =
      toks (cg {} x k).1 ++ (.op o :: (toks (cgConcat {} o (y :: r) (cg {} x k).2).1 ++ rest)) :=
    toks_sop _ _ o rest
  rw [e]
  exact binary_of 0 _ (h.pu closed_empty _ (stop_level ho _)) (hp 0 (Nat.zero_le _) _ rest hr)

theorem andV_reads (t : Ty) :
    (l : List N) → (∀ x ∈ l, ∀ k, Rd {} x (cg {} x k).1 (tr {} x k)) → l ≠ [] → ∀ tv k,
      Good (cgAndV t tv l k).1 ∧ PA (cgAndV t tv l k).1 (trAndV t tv l k)
  | [], _, hne, _, _ => absurd rfl hne
  | [x], H, _, tv, k => by
      have h := H x (List.mem_singleton.2 rfl) k
      exact ⟨h.good, h.pa⟩
  | x :: y :: r, H, _, tv, k => by
      have h := H x (List.mem_cons_self ..) k
      obtain ⟨sc, ss, he, h1, h2, h3, h4⟩ := via_reads {} t tv x (cg {} x k).2 h.good (h.pu closed_empty)
      obtain ⟨hg, hp⟩ := andV_reads t (y :: r) (fun z hz => H z (List.mem_cons_of_mem _ hz)) (by simp)
        (via {} t tv x (cg {} x k).1 (cg {} x k).2).2.1 (via {} t tv x (cg {} x k).1 (cg {} x k).2).2.2
      have e : (cgAndV t tv (x :: y :: r) k).1 = test (op .bang ++ sc) ss ++
          (cgAndV t (via {} t tv x (cg {} x k).1 (cg {} x k).2).2.1 (y :: r)
            (via {} t tv x (cg {} x k).1 (cg {} x k).2).2.2).1 := by
        simp only [cgAndV]
        rw [he]
        simp [test, List.append_assoc]
      rw [e]
      exact ⟨good_test (good_bang h1) h3 hg, pa_test (pu_prefix .bang rfl h2).pb h4 hp⟩

/-- the conditions and the value of `a && b ||` -/
theorem andVia_reads (m : Mode) (t : Ty) (tv : Option Nat) :
    (l : List N) → (∀ x ∈ l, ∀ k, Rd {} x (cg {} x k).1 (tr {} x k)) → l ≠ [] → ∀ k,
      ∃ sc ss, (cgAndVia m t tv l k).1 = test sc ss ∧ Good sc ∧ Good ss ∧ PA ss (trAndVia m t tv l k).2 ∧
        PB sc (joinC .andand (trAndVia m t tv l k).1) ∧
        ∀ (acc : C) (rest : List Tok), stopBinary 0 rest = true →
          Gets (fun n => operators n 0 acc (.op .andand :: (toks sc ++ rest)))
            ((trAndVia m t tv l k).1.foldl (.bin .andand) acc, rest)
  | [], _, hne, _ => absurd rfl hne
  | [x], H, _, k => by
      have h := H x (List.mem_singleton.2 rfl) k
      obtain ⟨sc, ss, he, h1, h2, h3, h4⟩ := via_reads m t tv x (cg {} x k).2 h.good (h.pu closed_empty)
      refine ⟨sc, ss, he, h1, h3, h4, h2.pb, ?_⟩
      intro acc rest hr
      refine operators_op 0 2 acc .andand rfl (by omega) _ (x := (_, rest)) ?_ (operators_stop 0 _ rest hr)
      exact binary_unary _ _ (h2 rest (stopBinary_suffix hr)) (stopBinary_mono (by omega) hr)
  | x :: y :: r, H, _, k => by
      have h := H x (List.mem_cons_self ..) k
      obtain ⟨sc, ss, he, h1, h3, h4, h5, h6⟩ :=
        andVia_reads m t tv (y :: r) (fun z hz => H z (List.mem_cons_of_mem _ hz)) (by simp) (cg {} x k).2
      refine ⟨(cg {} x k).1 ++ sop .andand ++ sc, ss, ?_, good_sop _ h.good h1, h3, h4, ?_, ?_⟩
      · simp only [cgAndVia]
        rw [he]
        simp [test, List.append_assoc]
      · intro rest hr
        rw [toks_sop]
        exact binary_of 0 _ (h.pu closed_empty _ rfl) (h6 _ rest hr)
      · intro acc rest hr
        rw [toks_sop]
        exact operators_op 0 2 acc .andand rfl (by omega) _ (x := (tr {} x k, _))
          (binary_unary _ _ (h.pu closed_empty _ rfl) rfl) (h6 _ rest hr)

theorem cgOrV_and (m : Mode) (t : Ty) (tv : Option Nat) (ta : Ty) (its : List N) (y : N) (r : List N) (k : Nat) :
    cgOrV m t tv (.and ta its :: y :: r) k =
      ((cgAndVia m t tv its k).1 ++ (cgOrV m t (cgAndVia m t tv its k).2.1 (y :: r) (cgAndVia m t tv its k).2.2).1,
        (cgOrV m t (cgAndVia m t tv its k).2.1 (y :: r) (cgAndVia m t tv its k).2.2).2) := by
  rw [cgOrV]

theorem cgOrV_other (m : Mode) (t : Ty) (tv : Option Nat) (x : N) (hx : ∀ a b, x ≠ .and a b) (y : N) (r : List N) (k : Nat) :
    cgOrV m t tv (x :: y :: r) k =
      let v := via m t tv x (cg {} x k).1 (cg {} x k).2
      (v.1 ++ (cgOrV m t v.2.1 (y :: r) v.2.2).1, (cgOrV m t v.2.1 (y :: r) v.2.2).2) := by
  rw [cgOrV]
  exact hx

theorem trOrV_and (m : Mode) (t : Ty) (tv : Option Nat) (ta : Ty) (its : List N) (y : N) (r : List N) (k : Nat) :
    trOrV m t tv (.and ta its :: y :: r) k =
      .cond (joinC .andand (trAndVia m t tv its k).1) (trAndVia m t tv its k).2
        (trOrV m t (cgAndVia m t tv its k).2.1 (y :: r) (cgAndVia m t tv its k).2.2) := by
  rw [trOrV]

theorem trOrV_other (m : Mode) (t : Ty) (tv : Option Nat) (x : N) (hx : ∀ a b, x ≠ .and a b) (y : N) (r : List N) (k : Nat) :
    trOrV m t tv (x :: y :: r) k =
      let v := via m t tv x (cg {} x k).1 (cg {} x k).2
      let c := viaC m t tv x (tr {} x k) (cg {} x k).2
      .cond c.1 c.2 (trOrV m t v.2.1 (y :: r) v.2.2) := by
  rw [trOrV]
  exact hx

theorem not_and_or (x : N) : (∃ a b, x = .and a b) ∨ ∀ a b, x ≠ .and a b := by
  cases x <;> first | exact Or.inl ⟨_, _, rfl⟩ | (right; intro a b h; cases h)

theorem orV_reads (m : Mode) (hm : closed m) (t : Ty) :
    (l : List N) → (∀ x ∈ l, ∀ m k, Rd m x (cg m x k).1 (tr m x k)) →
      (∀ x ∈ l, ∀ ta its, x = .and ta its → its ≠ [] ∧ ∀ y ∈ its, ∀ m k, Rd m y (cg m y k).1 (tr m y k)) →
      l ≠ [] → ∀ tv k,
      Good (cgOrV m t tv l k).1 ∧ PA (cgOrV m t tv l k).1 (trOrV m t tv l k)
  | [], _, _, hne, _, _ => absurd rfl hne
  | [x], H, _, _, tv, k => by
      have h := H x (List.mem_singleton.2 rfl) m k
      exact ⟨by simpa only [cgOrV] using h.good, by simpa only [cgOrV, trOrV] using h.pa⟩
  | x :: y :: r, H, H', _, tv, k => by
      rcases not_and_or x with ⟨ta, its, rfl⟩ | hx
      · obtain ⟨hne, hi⟩ := H' _ (List.mem_cons_self ..) ta its rfl
        obtain ⟨sc, ss, he, h1, h3, h4, h5, _⟩ := andVia_reads m t tv its (fun z hz k => hi z hz {} k) hne k
        obtain ⟨hg, hp⟩ := orV_reads m hm t (y :: r) (fun z hz => H z (List.mem_cons_of_mem _ hz))
          (fun z hz => H' z (List.mem_cons_of_mem _ hz)) (by simp)
          (cgAndVia m t tv its k).2.1 (cgAndVia m t tv its k).2.2
        rw [cgOrV_and, trOrV_and]
        dsimp only
        rw [he]
        exact ⟨good_test h1 h3 hg, pa_test h5 h4 hp⟩
      · have h := H x (List.mem_cons_self ..) {} k
        obtain ⟨sc, ss, he, h1, h2, h3, h4⟩ := via_reads m t tv x (cg {} x k).2 h.good (h.pu closed_empty)
        obtain ⟨hg, hp⟩ := orV_reads m hm t (y :: r) (fun z hz => H z (List.mem_cons_of_mem _ hz))
          (fun z hz => H' z (List.mem_cons_of_mem _ hz)) (by simp)
          (via m t tv x (cg {} x k).1 (cg {} x k).2).2.1 (via m t tv x (cg {} x k).1 (cg {} x k).2).2.2
        rw [cgOrV_other _ _ _ _ hx, trOrV_other _ _ _ _ hx]
        dsimp only
        rw [he]
        exact ⟨good_test h1 h3 hg, pa_test h2.pb h4 hp⟩

theorem args_reads (mask : Nat) :
    (l : List N) → (∀ x ∈ l, ∀ m k, Rd m x (cg m x k).1 (tr m x k)) → ∀ i k,
      All2 (cgArgs mask i l k).1 (trArgs mask i l k).1 ∧ All2 (cgArgs mask i l k).2.1 (trArgs mask i l k).2
  | [], _, _, _ => ⟨.nil, .nil⟩
  | a :: rest, H, i, k => by
      have h := H a (List.mem_cons_self ..) argMode k
      have hr := args_reads mask rest (fun z hz => H z (List.mem_cons_of_mem _ hz)) (i + 1)
      simp only [cgArgs, trArgs]
      split
      · obtain ⟨h1, h2⟩ := hr ((cg argMode a k).2 + 1)
        exact ⟨.cons (good_init _ h.good) (pa_init _ h.pa) h1,
          .cons (good_consume _ _ _) (pp_consume _ _ _).pu.pa h2⟩
      · obtain ⟨h1, h2⟩ := hr (cg argMode a k).2
        exact ⟨h1, .cons h.good h.pa h2⟩

/-! ## Every node -/

theorem isAssign_op (o : AOp) : isAssign o.op = true := by cases o <;> rfl
theorem isPrefix_op (o : UOp) : isPrefix o.op = true := by cases o <;> rfl
theorem isPrefix_inc (d : Bool) : isPrefix (incOp d) = true := by cases d <;> rfl
theorem level_op (o : BOp) : ∃ q, level o.op = some q := by cases o <;> exact ⟨_, rfl⟩

theorem next_sign (o : UOp) {q : Op} (h1 : q = .lpar ∨ isPrefix q = true) (h : clash o (some q) = false) :
    Next (.op o.op) (.op q) = true := by
  rcases h1 with rfl | h1
  · cases o <;> rfl
  · cases o <;> cases q <;> first | rfl | exact absurd h1 (by decide) | exact absurd h (by decide)

theorem shapeL_mem : {l : List N} → shapeL l = true → ∀ x ∈ l, shape x = true
  | [], _, _, hx => by cases hx
  | e :: r, h, x, hx => by
      simp only [shapeL, Bool.and_eq_true] at h
      rcases List.mem_cons.1 hx with rfl | hx
      · exact h.1
      · exact shapeL_mem h.2 x hx

theorem suffixable_lead : (m : Mode) → (e : N) → suffixable m e = true → lead m e = none
  | m, .copy t e, h => by
      simp only [suffixable, lead] at h ⊢
      cases ho : omits m t with
      | false => rfl
      | true =>
          rw [ho] at h
          rw [if_pos rfl]
          exact suffixable_lead {} e (by simpa using h)
  | _, .un _ _ _, h => by simp only [suffixable, lead] at h ⊢; rw [if_pos h]
  | _, .pre _ _ _, h => by simp [suffixable] at h
  | _, .not _, h => by simp [suffixable] at h
  | _, .var _ _, _ | _, .num _ _, _ | _, .flag _, _ | _, .fld _ _ _, _ | _, .call _ _ _ _, _
  | _, .bin _ _ _ _ _, _ | _, .asg _ _ _ _, _ | _, .post _ _ _, _ | _, .ite _ _ _ _, _
  | _, .and _ _, _ | _, .or _ _, _ => rfl

/-- `binSkipParens` needs an open mode -/
theorem skipParens_open {m : Mode} {o : BOp} (hm : closed m) : skipParens m o = false := by
  cases o <;> simp [skipParens, hm.1, hm.2]

theorem rd_bin (m : Mode) (t : Ty) (o : BOp) (mask : Nat) (a b : N) (k : Nat)
    (Ha : ∀ m k, Rd m a (cg m a k).1 (tr m a k)) (Hb : ∀ m k, Rd m b (cg m b k).1 (tr m b k)) :
    Rd m (.bin t o mask a b) (cg m (.bin t o mask a b) k).1 (tr m (.bin t o mask a b) k) := by
  simp only [cg, tr]
  generalize hha : held mask 0 a [b] = ha
  generalize hhb : held mask 1 b [] = hb
  have hra := Ha argMode k
  have hrb := Hb argMode (if ha = true then (cg argMode a k).2 + 1 else (cg argMode a k).2)
  generalize cg argMode a k = ra at *
  generalize tr argMode a k = ca at *
  generalize cg argMode b (if ha = true then ra.2 + 1 else ra.2) = rb at *
  generalize tr argMode b (if ha = true then ra.2 + 1 else ra.2) = cb at *
  obtain ⟨q, hq⟩ := level_op o
  -- the operands
  have xa : Good (if ha = true then consume argMode a.ty ra.2 else ra.1) ∧
      PU (if ha = true then consume argMode a.ty ra.2 else ra.1) (if ha = true then consumeC argMode a.ty ra.2 else ca) := by
    split
    · exact ⟨good_consume _ _ _, (pp_consume _ _ _).pu⟩
    · exact ⟨hra.good, hra.pu closed_arg⟩
  have xb : Good (if hb = true then consume argMode b.ty rb.2 else rb.1) ∧
      PU (if hb = true then consume argMode b.ty rb.2 else rb.1) (if hb = true then consumeC argMode b.ty rb.2 else cb) := by
    split
    · exact ⟨good_consume _ _ _, (pp_consume _ _ _).pu⟩
    · exact ⟨hrb.good, hrb.pu closed_arg⟩
  have hs := good_sop o.op xa.1 xb.1
  have ps := pb_bin o.op hq xa.2 xb.2
  generalize ((if ha = true then consume argMode a.ty ra.2 else ra.1) ++ sop o.op ++
    (if hb = true then consume argMode b.ty rb.2 else rb.1)) = s at *
  generalize (C.bin o.op (if ha = true then consumeC argMode a.ty ra.2 else ca)
    (if hb = true then consumeC argMode b.ty rb.2 else cb)) = c at *
  -- the temporaries
  have hh : All2 ((if ha = true then [init ra.2 ra.1] else []) ++ (if hb = true then [init rb.2 rb.1] else []))
      ((if ha = true then [initC ra.2 ca] else []) ++ (if hb = true then [initC rb.2 cb] else [])) := by
    cases ha <;> cases hb
    · exact .nil
    · exact .cons (good_init _ hrb.good) (pa_init _ hrb.pa) .nil
    · exact .cons (good_init _ hra.good) (pa_init _ hra.pa) .nil
    · exact .cons (good_init _ hra.good) (pa_init _ hra.pa) (.cons (good_init _ hrb.good) (pa_init _ hrb.pa) .nil)
  have he : ((if ha = true then [initC ra.2 ca] else []) ++ (if hb = true then [initC rb.2 cb] else [])).isEmpty =
      ((if ha = true then [init ra.2 ra.1] else []) ++ (if hb = true then [init rb.2 rb.1] else [])).isEmpty := by
    cases ha <;> cases hb <;> rfl
  rw [he]
  generalize ((if ha = true then [init ra.2 ra.1] else []) ++ (if hb = true then [init rb.2 rb.1] else [])) = hdr at *
  generalize ((if ha = true then [initC ra.2 ca] else []) ++ (if hb = true then [initC rb.2 cb] else [])) = hcs at *
  -- the operation
  have hu : Good (unpromote (prim a.ty) t (paren s)) ∧ PP (unpromote (prim a.ty) t (paren s)) (unpromoteC (prim a.ty) t c) ∧
      ∀ o, (unpromote (prim a.ty) t (paren s)).head? = some (.op o) → o = .lpar := by
    unfold unpromote unpromoteC
    split
    · exact ⟨good_cast t (good_paren hs), pp_cast t (good_paren hs) (pp_paren ps.pa).pu.pa, head_nm _ _⟩
    · exact ⟨good_paren hs, pp_paren ps.pa, fun o h => by cases h; rfl⟩
  by_cases hsk : (skipParens m o && hdr.isEmpty) = true
  · rw [if_pos hsk, if_pos hsk]
    have hop : ¬ closed m := by
      intro hm
      rw [skipParens_open hm] at hsk
      simp at hsk
    exact ⟨hs, ps.pa, fun h => absurd h hop, fun h => absurd h hop, fun h => absurd h hop⟩
  · rw [if_neg hsk, if_neg hsk]
    cases hh with
    | nil => exact Rd.of_pp hu.1 hu.2.1 (fun o h => Or.inl (hu.2.2 o h))
    | @cons s1 c1 l1 cs1 g1 p1 hl =>
        have hall : All2 (s1 :: l1) (c1 :: cs1) := .cons g1 p1 hl
        refine Rd.of_pp (good_ooe hall.good hu.1) (pp_ooe hall hu.1 hu.2.1.pu.pa (by simp)) ?_
        unfold ooeWrap
        rw [if_neg (by simp)]
        exact head_paren _

/-- **Every node of the shape, in every mode.** -/
theorem rd : ∀ (n : Nat) (e : N), sizeOf e < n → shape e = true → ∀ m k, Rd m e (cg m e k).1 (tr m e k) := by
  intro n
  induction n with
  | zero => intro e h; omega
  | succ n ih =>
      intro e hn hsh m k
      -- the operands of a list
      have HL : ∀ (l : List N), sizeOf l < n → shapeL l = true → ∀ x ∈ l, ∀ m k, Rd m x (cg m x k).1 (tr m x k) :=
        fun l hl hs x hx m k => ih x (by have := List.sizeOf_lt_of_mem hx; omega) (shapeL_mem hs x hx) m k
      cases e with
      | var t x => exact Rd.of_pp (good_nm _) (pp_nm _) (by intro o h; simp only [cg, nm] at h; cases h)
      | flag b => exact Rd.of_pp (good_nm _) (pp_nm _) (by intro o h; simp only [cg, nm] at h; cases h)
      | num t j =>
          simp only [cg, tr]
          split
          · exact Rd.of_pp (good_cast _ (good_nm _)) (pp_cast _ (good_nm _) (pp_nm _).pu.pa) (head_nm _ _)
          · exact Rd.of_pp (good_nm _) (pp_nm _) (by intro o h; cases h)
      | fld t e f =>
          simp only [shape, Bool.and_eq_true] at hsh
          have h := ih e (by simp at hn; omega) hsh.1 argMode k
          refine Rd.of_pp (good_dot _ h.good) (pp_dot _ (h.pp closed_arg hsh.2)) ?_
          intro o ho
          left
          have hh : (cg argMode e k).1.head? = some (.op o) := by
            simp only [cg] at ho
            rwa [List.append_assoc, head_append h.good.ne] at ho
          rcases h.hd closed_arg o hh with h1 | h1
          · exact h1
          · exfalso
            rw [suffixable_lead argMode e hsh.2] at h1
            cases h1
      | call t f mask args =>
          simp only [shape] at hsh
          obtain ⟨h1, h2⟩ := args_reads mask args (HL args (by simp at hn; omega) hsh) 0 k
          simp only [cg, tr]
          have hc := pp_call (.fn f) h2
          have hg := good_paren_join (.fn f) _ h2.good
          generalize (cgArgs mask 0 args k).1 = hdr at *
          generalize (trArgs mask 0 args k).1 = hcs at *
          cases h1 with
          | nil => exact Rd.of_pp hg hc (head_nm _ _)
          | @cons s1 c1 l1 cs1 g1 p1 hl =>
              have hall : All2 (s1 :: l1) (c1 :: cs1) := .cons g1 p1 hl
              refine Rd.of_pp (good_ooe hall.good hg) (pp_ooe hall hg hc.pu.pa (by simp)) ?_
              unfold ooeWrap
              rw [if_neg (by simp)]
              exact head_paren _
      | un t o e =>
          simp only [shape, Bool.and_eq_true, Bool.not_eq_true'] at hsh
          have h := ih e (by simp at hn; omega) hsh.1 argMode k
          have hnext : ∀ p, (cg argMode e k).1.head? = some p → Next (.op o.op) p = true := by
            intro p hp
            obtain ⟨p', hp', hst⟩ := h.good.hd
            rw [hp] at hp'; cases hp'
            cases p with
            | sp => rfl
            | w a => rfl
            | op q =>
                rcases h.hd closed_arg q hp with rfl | h1
                · cases o <;> rfl
                · have hc := hsh.2
                  rw [h1] at hc
                  refine next_sign o ?_ hc
                  simpa [startOk] using hst
          have hg := good_prefix o.op (isPrefix_op o) h.good hnext
          have hp := pu_prefix o.op (isPrefix_op o) (h.pu closed_arg)
          simp only [cg, tr, unpromote, unpromoteC]
          split
          · exact Rd.of_pp (good_cast t hg) (pp_cast t hg hp.pa) (head_nm _ _)
          · rename_i hne
            refine ⟨hg, hp.pa, fun _ => hp, ?_, ?_⟩
            · intro _ hsx
              simp only [suffixable] at hsx
              exact absurd hsx hne
            · intro _ o' ho'
              cases ho'
              right
              simp only [lead]
              rw [if_neg hne]
      | bin t o mask a b =>
          simp only [shape, Bool.and_eq_true] at hsh
          exact rd_bin m t o mask a b k (fun m k => ih a (by simp at hn; omega) hsh.1 m k)
            (fun m k => ih b (by simp at hn; omega) hsh.2 m k)
      | asg t o x e =>
          simp only [shape] at hsh
          have h := ih e (by simp at hn; omega) hsh { abAll := true } k
          simp only [cg, tr]
          have hg := good_sop o.op (good_nm (.var x)) h.good
          have hp := pa_asg (.var x) o.op (isAssign_op o) h.pa
          by_cases hs : skipParensAsg m = true
          · rw [if_pos hs]
            have hop : ¬ closed m := by
              intro hm; simp [skipParensAsg, hm.1] at hs
            exact ⟨hg, hp, fun h => absurd h hop, fun h => absurd h hop, fun h => absurd h hop⟩
          · rw [if_neg hs]
            exact Rd.of_pp (good_paren hg) (pp_paren hp) (head_paren _)
      | pre t d x =>
          have hg : Good (op (incOp d) ++ nm (.var x)) := by
            cases d <;> exact ⟨rfl, ⟨_, rfl, rfl⟩, ⟨_, rfl, rfl⟩⟩
          have hp := pu_prefix (incOp d) (isPrefix_inc d) (pp_nm (.var x)).pu
          refine ⟨hg, hp.pa, fun _ => hp, fun _ h => by simp [suffixable] at h, ?_⟩
          intro _ o ho
          simp only [cg, op, nm] at ho
          cases ho
          exact Or.inr rfl
      | post t d x =>
          simp only [cg, tr, unpromote, unpromoteC]
          split
          · exact Rd.of_pp (good_cast t (good_post _ _)) (pp_cast t (good_post _ _) (pp_post _ _).pu.pa) (head_nm _ _)
          · exact Rd.of_pp (good_post _ _) (pp_post _ _) (head_nm _ _)
      | not e =>
          simp only [shape] at hsh
          have h := ih e (by simp at hn; omega) hsh {} k
          have hp := pu_prefix .bang rfl (h.pu closed_empty)
          refine ⟨good_bang h.good, hp.pa, fun _ => hp, fun _ h => by simp [suffixable] at h, ?_⟩
          intro _ o ho
          simp only [cg, op] at ho
          cases ho
          exact Or.inr rfl
      | ite t c a b =>
          simp only [shape, Bool.and_eq_true] at hsh
          have hc := ih c (by simp at hn; omega) hsh.1.1 {} k
          have ha := ih a (by simp at hn; omega) hsh.1.2 m.pass (cg {} c k).2
          have hb := ih b (by simp at hn; omega) hsh.2 m.pass (cg m.pass a (cg {} c k).2).2
          have br : ∀ (tb : Ty) {s : Text} {c : C}, Good s → PU s c → Good (asBool t tb s) ∧ PA (asBool t tb s) (asBoolC t tb c) := by
            intro tb s c hg hp
            unfold asBool asBoolC
            split
            · rw [List.append_assoc]
              exact ⟨good_bang (good_bang (good_paren hg)), (pu_prefix .bang rfl (pu_prefix .bang rfl (pp_paren hp.pa).pu)).pa⟩
            · exact ⟨hg, hp.pa⟩
          obtain ⟨ga, pa⟩ := br a.ty ha.good (ha.pu (closed_pass m))
          obtain ⟨gb, pb⟩ := br b.ty hb.good (hb.pu (closed_pass m))
          refine Rd.of_pp (good_paren ?_) (pp_paren ?_) (head_paren _)
          · have h1 := good_sop .colon (good_sop .quest hc.good ga) gb
            simpa [List.append_assoc] using h1
          · exact pa_cond (hc.pu closed_empty).pb pa pb
      | and t items =>
          simp only [shape, Bool.and_eq_true, decide_eq_true_eq] at hsh
          have H := HL items (by simp at hn; omega) hsh.2
          have key : Good ((if t = .bool then cgConcat { parens := items.length == 1 } .andand items k else cgAndV t none items k).1) ∧
              PA ((if t = .bool then cgConcat { parens := items.length == 1 } .andand items k else cgAndV t none items k).1)
                (if t = .bool then joinC .andand (trL { parens := items.length == 1 } items k) else trAndV t none items k) := by
            have hlen : (items.length == 1) = false := by simp; omega
            split
            · match items, hsh.1 with
              | x :: y :: r, _ =>
                  rw [hlen]
                  obtain ⟨h1, h2⟩ := concat_pb .andand rfl x y r (fun z hz k => H z hz {} k) k
                  exact ⟨h1, h2.pa⟩
            · exact andV_reads t items (fun z hz k => H z hz {} k) (by rintro rfl; simp at hsh) none k
          simp only [cg, tr, outer]
          by_cases hm : m.parens = true
          · rw [if_pos hm]
            have hop : ¬ closed m := by intro hc; rw [hc.2] at hm; cases hm
            exact ⟨key.1, key.2, fun h => absurd h hop, fun h => absurd h hop, fun h => absurd h hop⟩
          · rw [if_neg hm]
            exact Rd.of_pp (good_paren key.1) (pp_paren key.2) (head_paren _)
      | or t items =>
          simp only [shape, Bool.and_eq_true, decide_eq_true_eq] at hsh
          have hsz : sizeOf items < n := by simp at hn; omega
          have H := HL items hsz hsh.2
          have H' : ∀ x ∈ items, ∀ ta its, x = .and ta its → its ≠ [] ∧ ∀ y ∈ its, ∀ m k, Rd m y (cg m y k).1 (tr m y k) := by
            intro x hx ta its hxe
            have hs := shapeL_mem hsh.2 x hx
            subst hxe
            simp only [shape, Bool.and_eq_true, decide_eq_true_eq] at hs
            refine ⟨by rintro rfl; simp at hs, HL its ?_ hs.2⟩
            have := List.sizeOf_lt_of_mem hx
            simp at this
            omega
          have key : Good ((if t = .bool then cgConcat { parens := items.length == 1 } .oror items k else cgOrV m.pass t none items k).1) ∧
              PA ((if t = .bool then cgConcat { parens := items.length == 1 } .oror items k else cgOrV m.pass t none items k).1)
                (if t = .bool then joinC .oror (trL { parens := items.length == 1 } items k) else trOrV m.pass t none items k) := by
            have hlen : (items.length == 1) = false := by simp; omega
            split
            · match items, hsh.1 with
              | x :: y :: r, _ =>
                  rw [hlen]
                  obtain ⟨h1, h2⟩ := concat_pb .oror rfl x y r (fun z hz k => H z hz {} k) k
                  exact ⟨h1, h2.pa⟩
            · exact orV_reads m.pass (closed_pass m) t items H H' (by rintro rfl; simp at hsh) none k
          simp only [cg, tr, outer]
          by_cases hm : m.parens = true
          · rw [if_pos hm]
            have hop : ¬ closed m := by intro hc; rw [hc.2] at hm; cases hm
            exact ⟨key.1, key.2, fun h => absurd h hop, fun h => absurd h hop, fun h => absurd h hop⟩
          · rw [if_neg hm]
            exact Rd.of_pp (good_paren key.1) (pp_paren key.2) (head_paren _)
      | copy t e =>
          simp only [shape] at hsh
          have h := ih e (by simp at hn; omega) hsh {} k
          simp only [cg, tr]
          cases ho : omits m t with
          | true =>
              rw [copyNode_omit _ ho, copyNodeC_omit _ ho]
              refine ⟨h.good, h.pa, fun _ => h.pu closed_empty, ?_, ?_⟩
              · intro _ hs
                simp only [suffixable, ho, Bool.not_true, Bool.false_or] at hs
                exact h.pp closed_empty hs
              · intro _ o hd
                rcases h.hd closed_empty o hd with h1 | h1
                · exact Or.inl h1
                · right
                  simp only [lead, ho]
                  exact h1
          | false =>
              rw [copyNode_keep _ ho, copyNodeC_keep _ ho]
              exact Rd.of_pp (good_cast t h.good) (pp_cast t h.good h.pa) (head_nm _ _)

/-- **What is written for an expression of the shape is read by C++ as its tree.** -/
theorem cg_reads (m : Mode) (e : N) (k : Nat) (h : shape e = true) :
    ReadsAs (text (cg m e k).1) (tr m e k) := by
  have hr := rd _ e (Nat.lt_succ_self _) h m k
  refine ⟨_, lex_pieces _ hr.good.fine, ?_⟩
  have := expr_assign _ (hr.pa [] rfl) rfl
  rw [List.append_nil] at this
  exact this

end Verif.CgTree
