import Verif.ParseComplete
/-!
# Whatever is read is an expression that is grouped rightly
-/
namespace Verif.Parse
open Verif

theorem op_eq {t : Token} {v : String} (hk : t.kind = "op") (hv : t.value = v) : t = op v := by
  cases t; simp only at hk hv; rw [hk, hv]

theorem id_eq {t : Token} (hk : t.kind = "id") : t = ⟨"id", t.value⟩ := by
  cases t; simp only at hk; rw [hk]

/-- where the loop over the tails ends -/
theorem stops_of_none {f q : Nat} {n : Node} {ts : List Token} (h : tail f q n ts = .ok none) : stops q ts = true := by
  cases f with
  | zero => rw [tail] at h; cases h
  | succ f =>
    cases ts with
    | nil => rw [tail.eq_def] at h; cases h
    | cons t ts =>
      rw [tail.eq_def] at h
      dsimp only at h
      unfold stops
      by_cases hk : t.kind = "op"
      · rw [if_pos hk] at h
        simp only [hk, ne_eq, not_true_eq_false, decide_false, Bool.false_or, Bool.and_eq_true, decide_eq_true_eq]
        by_cases h0 : t.value = ";"
        · rw [h0]
          rw [if_neg (by rw [prec_eq]; decide)]
          decide
        rw [if_neg h0] at h
        by_cases h1 : t.value = "."
        · rw [if_pos h1] at h
          cases ts with
          | nil => cases h
          | cons t1 ts =>
            dsimp only at h
            split at h <;> cases h
        rw [if_neg h1] at h
        by_cases h2 : t.value = "("
        · rw [if_pos h2] at h
          obtain ⟨x, _, h⟩ := R.bind_ok h
          obtain ⟨y, _, h⟩ := R.bind_ok h
          cases h
        rw [if_neg h2] at h
        by_cases h3 : t.value = "["
        · rw [if_pos h3] at h
          obtain ⟨x, _, h⟩ := R.bind_ok h
          cases h
        rw [if_neg h3] at h
        by_cases hp : prec t.value ≠ 0
        · rw [if_pos hp] at h
          rw [if_pos hp]
          by_cases hm : miss (prec t.value) q = true
          · refine ⟨⟨⟨⟨h1, h2⟩, h3⟩, ?_⟩, hm⟩
            intro h4
            rw [h4, prec_eq] at hp
            exact hp (by decide)
          rw [if_neg hm] at h
          split at h
          · obtain ⟨x, _, h⟩ := R.bind_ok h
            obtain ⟨y, _, h⟩ := R.bind_ok h
            obtain ⟨z, _, h⟩ := R.bind_ok h
            cases h
          · split at h
            · obtain ⟨x, _, h⟩ := R.bind_ok h
              obtain ⟨y, _, h⟩ := R.bind_ok h
              cases h
            · obtain ⟨x, _, h⟩ := R.bind_ok h
              obtain ⟨y, _, h⟩ := R.bind_ok h
              cases h
        · rw [if_neg hp] at h
          rw [if_neg hp]
          by_cases h5 : POSTFIX.contains t.value = true
          · rw [if_pos h5] at h; cases h
          rw [if_neg h5] at h
          by_cases h4 : t.value = "::"
          · rw [if_pos h4] at h; cases h
          exact ⟨⟨⟨⟨h1, h2⟩, h3⟩, h4⟩, by simpa using h5⟩
      · simp [hk]

/-- `e` is what has been read so far: its node is `n`, and what follows does not belong to its last operand -/
structure Good (q : Nat) (e : Expr) (n : Node) (ts : List Token) : Prop where
  grouped : e.Grouped
  act : e.act = .ok n
  fits : Fits q e
  edge : e.edge ≠ 0 → stops e.edge ts = true

/-- what the parts of the parser guarantee with so much fuel -/
structure Sound (f : Nat) : Prop where
  expr : ∀ q ts n rest, Parse.expr f q ts = .ok (n, rest) → ∃ e : Expr, e.Grouped ∧ ts = e.toks ++ rest ∧ e.act = .ok n ∧ Fits q e ∧ stops q rest = true
  tails : ∀ q e n ts n' rest, Good q e n ts → Parse.tails f q n ts = .ok (n', rest) →
    ∃ e' : Expr, e'.Grouped ∧ e.toks ++ ts = e'.toks ++ rest ∧ e'.act = .ok n' ∧ Fits q e' ∧ stops q rest = true
  head : ∀ q ts n rest, Parse.head f ts = .ok (n, rest) → ∃ e : Expr, Good q e n rest ∧ ts = e.toks ++ rest
  tail : ∀ q e n ts n' rest, Good q e n ts → Parse.tail f q n ts = .ok (some (n', rest)) → ∃ e', Good q e' n' rest ∧ e.toks ++ ts = e'.toks ++ rest
  ann : ∀ ts n rest, typeAnnot f ts = .ok (n, rest) → ∃ (k : Ref) (r : Expr) (b : Node), r.Grouped ∧ r.act = .ok b ∧ n = k.act b ∧ r.lev ≤ 1 ∧
    (k = .none → r.toks.head? ≠ some (op "&")) ∧ (k = .imm → r.toks.head? ≠ some ⟨"id", "mut"⟩) ∧ ts = k.toks ++ (r.toks ++ rest) ∧ stops 1 rest = true
  body : ∀ endop acc named ts ns nm rest, argsBody f endop acc named ts = .ok (ns, nm, rest) →
    ∃ (as : Args) (ms : List Node) (mm : Bool), as.Grouped ∧ as.act = .ok (ms, mm) ∧ ns = acc ++ ms ∧ nm = (named || mm) ∧ ts = as.toks ++ op endop :: rest
  args : ∀ endop acc named ts ns nm rest, acc ≠ [] → Parse.args f endop acc named ts = .ok (ns, nm, rest) →
    (ts = op endop :: rest ∧ ns = acc ∧ nm = named) ∨
    ∃ (as : Args) (ms : List Node) (mm : Bool), as.Grouped ∧ as.act = .ok (ms, mm) ∧ ns = acc ++ ms ∧ nm = (named || mm) ∧
      ts = op "," :: (as.toks ++ op endop :: rest)
  args0 : ∀ endop named ts ns nm rest, Parse.args f endop [] named ts = .ok (ns, nm, rest) →
    ∃ (as : Args) (mm : Bool), as.Grouped ∧ as.act = .ok (ns, mm) ∧ nm = (named || mm) ∧ ts = as.toks ++ op endop :: rest

theorem fits_one {e : Expr} (h : Fits 1 e) : e.lev ≤ 1 := by
  rcases h with h | h
  · exact h
  · rw [Bool.eq_false_iff, Ne, miss_iff] at h
    omega

theorem sound_zero : Sound 0 where
  expr _ _ _ _ h := by rw [Parse.expr] at h; cases h
  tails _ _ _ _ _ _ _ h := by rw [Parse.tails] at h; cases h
  head _ _ _ _ h := by rw [Parse.head] at h; cases h
  tail _ _ _ _ _ _ _ h := by rw [Parse.tail] at h; cases h
  ann _ _ _ h := by rw [Parse.typeAnnot] at h; cases h
  body _ _ _ _ _ _ _ h := by rw [Parse.argsBody] at h; cases h
  args _ _ _ _ _ _ _ _ h := by rw [Parse.args] at h; cases h
  args0 _ _ _ _ _ _ h := by rw [Parse.args] at h; cases h

theorem consumeOp_ok {v : String} {ts ts' : List Token} (h : consumeOp v ts = .ok ts') : ts = op v :: ts' := by
  cases ts with
  | nil => cases h
  | cons t ts =>
    unfold consumeOp at h
    dsimp only at h
    split at h
    · cases h; rename_i h; rw [op_eq h.1 h.2]
    · cases h

theorem softComma_ok {v : String} {ts ts' : List Token} (h : softComma v ts = .ok ts') : ts = op "," :: ts' ∨ (ts' = ts ∧ ∃ r, ts = op v :: r) := by
  cases ts with
  | nil => cases h
  | cons t ts =>
    unfold softComma at h
    dsimp only at h
    split at h
    · cases h; rename_i h; exact .inl (by rw [op_eq h.1 h.2])
    · split at h
      · cases h; rename_i h; exact .inr ⟨rfl, ts, by rw [op_eq h.1 h.2]⟩
      · cases h

theorem argHead_ok {ts : List Token} : ∃ l : Label, (argHead ts).1 = l.head ∧ ts = l.toks ++ (argHead ts).2 := by
  cases ts with
  | nil => exact ⟨.none, rfl, rfl⟩
  | cons t ts =>
    unfold argHead
    dsimp only
    split
    · rename_i h; exact ⟨.auto true, rfl, by rw [op_eq h.1 h.2]; rfl⟩
    · split
      · rename_i h; exact ⟨.auto false, rfl, by rw [op_eq h.1 h.2]; rfl⟩
      · split
        · rename_i hid
          cases ts with
          | nil => exact ⟨.none, rfl, rfl⟩
          | cons t1 ts =>
            dsimp only
            split
            · rename_i h; exact ⟨.name t.value false, rfl, by rw [op_eq h.1 h.2]; conv => lhs; rw [id_eq hid]
                                                              rfl⟩
            · split
              · rename_i h; exact ⟨.name t.value true, rfl, by rw [op_eq h.1 h.2]; conv => lhs; rw [id_eq hid]
                                                               rfl⟩
              · exact ⟨.none, rfl, rfl⟩
        · exact ⟨.none, rfl, rfl⟩

theorem argNode_head (l : Label) (n : Node) : argNode l.head n = l.act n := by cases l <;> rfl

/-- an operand before an operator that its context takes -/
theorem edge_op {q : Nat} {e : Expr} {n : Node} {o : String} {ts : List Token} (hg : Good q e n (op o :: ts)) (hl : level o ≠ 0) :
    e.edge < level o ∨ (level o = e.edge ∧ right (level o) = false) := by
  by_cases h0 : e.edge = 0
  · left; omega
  · have h := hg.edge h0
    unfold stops at h
    simp only [ne_eq, not_true_eq_false, decide_false, Bool.false_or, Bool.and_eq_true, decide_eq_true_eq, prec_eq] at h
    have h := h.2
    rw [if_pos hl, miss_iff] at h
    exact h

/-- nothing attaches to an expression that ends with an operand -/
theorem edge_zero {q : Nat} {e : Expr} {n : Node} {o : String} {ts : List Token} (hg : Good q e n (op o :: ts)) (hl : level o = 0)
    (ho : o = "." ∨ o = "(" ∨ o = "[" ∨ POSTFIX.contains o = true) : e.edge = 0 := by
  apply Decidable.byContradiction
  intro h0
  have h := hg.edge h0
  unfold stops at h
  simp only [ne_eq, not_true_eq_false, decide_false, Bool.false_or, Bool.and_eq_true, decide_eq_true_eq, prec_eq, hl, if_false] at h
  rcases ho with ho | ho | ho | ho
  · exact h.1.1.1.1 ho
  · exact h.1.1.1.2 ho
  · exact h.1.1.2 ho
  · rw [ho] at h; exact absurd h.2 (by decide)

theorem fits_max {q p : Nat} {e e' : Expr} (he : Fits q e) (hp : miss p q = false) (h2 : p ≠ 0) (h1 : p ≠ 1) (hl : e'.lev = max p e.lev) : Fits q e' := by
  right
  rw [hl]
  rcases Nat.le_total p e.lev with h | h
  · rw [Nat.max_eq_right h]
    rcases he with he | he
    · omega
    · exact he
  · rw [Nat.max_eq_left h]; exact hp

theorem sound_tail {f : Nat} (S : Sound f) : ∀ q e n ts n' rest, Good q e n ts → tail (f + 1) q n ts = .ok (some (n', rest)) →
    ∃ e', Good q e' n' rest ∧ e.toks ++ ts = e'.toks ++ rest := by
  intro q e n ts n' rest hg h
  cases ts with
  | nil => rw [tail.eq_def] at h; cases h
  | cons t ts =>
    rw [tail.eq_def] at h
    dsimp only at h
    by_cases hk : ¬ t.kind = "op"
    · rw [if_neg hk] at h; cases h
    have hk : t.kind = "op" := by simpa using hk
    rw [if_pos hk] at h
    obtain ⟨o, rfl⟩ : ∃ o, t = op o := ⟨t.value, op_eq hk rfl⟩
    dsimp only at h
    by_cases h0 : o = ";"
    · rw [if_pos h0] at h; cases h
    rw [if_neg h0] at h
    by_cases h1 : o = "."
    · subst h1
      rw [if_pos rfl] at h
      have he := edge_zero hg (by decide) (.inl rfl)
      cases ts with
      | nil => cases h
      | cons t1 ts =>
        dsimp only at h
        split at h
        · rename_i hid
          cases h
          refine ⟨.dot e t1.value, ⟨by rw [Expr.Grouped]; exact ⟨hg.grouped, he⟩, by rw [Expr.act, hg.act]; rfl, .inl (by simp [Expr.lev]),
            fun h => absurd rfl h⟩, ?_⟩
          rw [Expr.toks, id_eq hid]; simp
        · cases h
    rw [if_neg h1] at h
    by_cases h2 : o = "("
    · subst h2
      rw [if_pos rfl] at h
      have he := edge_zero hg (by decide) (.inr (.inl rfl))
      obtain ⟨⟨ns, nm, ts'⟩, ha, h⟩ := R.bind_ok h
      obtain ⟨m, hm, h⟩ := R.bind_ok h
      cases h
      obtain ⟨as, mm, a1, a2, a3, a4⟩ := S.args0 _ _ _ _ _ _ ha
      rw [Bool.false_or] at a3
      subst a3
      refine ⟨.call e as, ⟨by rw [Expr.Grouped]; exact ⟨hg.grouped, he, a1⟩, ?_, .inl (by simp [Expr.lev]), fun h => absurd rfl h⟩, ?_⟩
      · rw [Expr.act, hg.act, a2]; exact hm
      · rw [Expr.toks, a4]; simp
    rw [if_neg h2] at h
    by_cases h3 : o = "["
    · subst h3
      rw [if_pos rfl] at h
      have he := edge_zero hg (by decide) (.inr (.inr (.inl rfl)))
      obtain ⟨⟨ns, nm, ts'⟩, ha, h⟩ := R.bind_ok h
      cases h
      obtain ⟨as, mm, a1, a2, a3, a4⟩ := S.args0 _ _ _ _ _ _ ha
      rw [Bool.false_or] at a3
      subst a3
      refine ⟨.index e as, ⟨by rw [Expr.Grouped]; exact ⟨hg.grouped, he, a1⟩, ?_, .inl (by simp [Expr.lev]), fun h => absurd rfl h⟩, ?_⟩
      · rw [Expr.act, hg.act, a2]; rfl
      · rw [Expr.toks, a4]; simp
    rw [if_neg h3, prec_eq] at h
    by_cases hl : level o ≠ 0
    · rw [if_pos hl] at h
      have hone := level_ne_one o
      by_cases hm : miss (level o) q = true
      · rw [if_pos hm] at h; cases h
      rw [if_neg hm] at h
      have hm : miss (level o) q = false := by simpa using hm
      have hedge := edge_op hg hl
      by_cases h4 : o = "?"
      · subst h4
        rw [if_pos rfl] at h
        have e15 : level "?" = 15 := by decide
        rw [e15] at h hm hedge
        obtain ⟨⟨m, t2⟩, hx, h⟩ := R.bind_ok h
        obtain ⟨t3, hc, h⟩ := R.bind_ok h
        obtain ⟨⟨r, t4⟩, hy, h⟩ := R.bind_ok h
        cases h
        obtain ⟨em, g1, g2, g3, _, _⟩ := S.expr _ _ _ _ hx
        obtain ⟨er, k1, k2, k3, k4, k5⟩ := S.expr _ _ _ _ hy
        have hc := consumeOp_ok hc
        dsimp only at hc k2 g2 k5
        have c15 : e.edge < 15 := by
          rcases hedge with h | ⟨_, h⟩
          · exact h
          · exact absurd h (by decide)
        have r15 : er.lev ≤ 15 := by
          rcases k4 with h | h
          · omega
          · rw [Bool.eq_false_iff, Ne, miss_iff] at h; omega
        refine ⟨.cond e em er, ⟨by rw [Expr.Grouped]; exact ⟨hg.grouped, g1, k1, c15, r15⟩, ?_, fits_max hg.fits hm (by omega) (by omega) rfl, fun _ => k5⟩, ?_⟩
        · rw [Expr.act, hg.act, g3, k3]; rfl
        · rw [Expr.toks, g2, hc, k2]; simp
      rw [if_neg h4] at h
      by_cases h5 : o = "->" ∨ o = "=>"
      · rw [if_pos h5] at h
        have e10 : level o = 10 := by rcases h5 with rfl | rfl <;> decide
        obtain ⟨⟨r, t2⟩, hx, h⟩ := R.bind_ok h
        obtain ⟨m, hc, h⟩ := R.bind_ok h
        cases h
        obtain ⟨k, er, b, g1, g2, g3, g4, g5, g6, g7, g8⟩ := S.ann _ _ _ hx
        refine ⟨.cast o e k er, ⟨by rw [Expr.Grouped]; exact ⟨h5, hg.grouped, g1, by omega, g4, g5, g6⟩, ?_,
          fits_max hg.fits (e10 ▸ hm) (by omega) (by omega) rfl, fun _ => g8⟩, ?_⟩
        · rw [Expr.act, hg.act, g2]; simp only [R.bind]; rw [← g3]; exact hc
        · rw [Expr.toks, g7]; simp
      rw [if_neg h5] at h
      obtain ⟨⟨r, t2⟩, hx, h⟩ := R.bind_ok h
      obtain ⟨m, hc, h⟩ := R.bind_ok h
      cases h
      obtain ⟨er, k1, k2, k3, k4, k5⟩ := S.expr _ _ _ _ hx
      refine ⟨.bin o e er, ⟨?_, ?_, fits_max hg.fits hm hl hone rfl, fun _ => k5⟩, ?_⟩
      · rw [Expr.Grouped]
        refine ⟨hl, h4, fun h => h5 (.inl h), fun h => h5 (.inr h), hg.grouped, k1, ?_⟩
        by_cases hri : right (level o) = true
        · rw [if_pos hri]
          refine ⟨?_, ?_⟩
          · rcases hedge with h | ⟨_, h⟩
            · exact h
            · rw [hri] at h; cases h
          · rcases k4 with h | h
            · omega
            · rw [Bool.eq_false_iff, Ne, miss_iff] at h; omega
        · rw [if_neg hri]
          refine ⟨by omega, ?_⟩
          rcases k4 with h | h
          · omega
          · rw [Bool.eq_false_iff, Ne, miss_iff] at h
            have : ¬ er.lev = level o := fun hh => h (.inr ⟨hh, by rw [hh]; simpa using hri⟩)
            omega
      · rw [Expr.act, hg.act, k3]; exact hc
      · rw [Expr.toks, k2]; simp
    · rw [if_neg hl] at h
      by_cases h5 : POSTFIX.contains o = true
      · rw [if_pos h5] at h
        have he := edge_zero hg (by simpa using hl) (.inr (.inr (.inr h5)))
        cases h
        refine ⟨.post o e, ⟨?_, by rw [Expr.act, hg.act]; rfl, .inl (by simp [Expr.lev]), fun h => absurd rfl h⟩, by rw [Expr.toks]; simp⟩
        rw [Expr.Grouped]
        exact ⟨List.contains_iff_mem.1 h5, hg.grouped, he⟩
      rw [if_neg h5] at h
      split at h <;> cases h

theorem sound_head {f : Nat} (S : Sound f) : ∀ q ts n rest, head (f + 1) ts = .ok (n, rest) → ∃ e : Expr, Good q e n rest ∧ ts = e.toks ++ rest := by
  intro q ts n rest h
  cases ts with
  | nil => rw [head.eq_def] at h; cases h
  | cons t ts =>
    rw [head.eq_def] at h
    dsimp only at h
    split at h
    · rename_i hk
      cases h
      refine ⟨.lit t.kind t.value, ⟨by rw [Expr.Grouped]; simpa using hk, by rw [Expr.act], .inl (by simp [Expr.lev]), fun h => absurd rfl h⟩, by rw [Expr.toks]; rfl⟩
    split at h
    · rename_i hid
      split at h
      · cases h
      · rename_i hs
        obtain ⟨m, hm, h⟩ := R.bind_ok h
        cases h
        refine ⟨.id t.value, ⟨?_, by rw [Expr.act]; exact hm, .inl (by simp [Expr.lev]), fun h => absurd rfl h⟩, by rw [Expr.toks, ← id_eq hid]; rfl⟩
        rw [Expr.Grouped]
        refine ⟨fun hv => hs ?_, fun hv => ?_⟩
        · cases rest with
          | nil => rfl
          | cons t1 ts => unfold special; simp [hv]
        · rw [hv] at hm
          exact absurd hm (by simp [createRead])
    by_cases hk : ¬ t.kind = "op"
    · rw [if_neg hk] at h; cases h
    have hk : t.kind = "op" := by simpa using hk
    rw [if_pos hk] at h
    obtain ⟨o, rfl⟩ : ∃ o, t = op o := ⟨t.value, op_eq hk rfl⟩
    dsimp only at h
    by_cases h1 : o = "("
    · subst h1
      rw [if_pos rfl] at h
      obtain ⟨⟨m, t2⟩, hx, h⟩ := R.bind_ok h
      obtain ⟨t3, hc, h⟩ := R.bind_ok h
      cases h
      obtain ⟨e, g1, g2, g3, _, _⟩ := S.expr _ _ _ _ hx
      refine ⟨.paren e, ⟨by rw [Expr.Grouped]; exact g1, by rw [Expr.act, g3]; rfl, .inl (by simp [Expr.lev]), fun h => absurd rfl h⟩, ?_⟩
      have hc := consumeOp_ok hc
      dsimp only at hc
      rw [Expr.toks, g2, hc]; simp
    rw [if_neg h1] at h
    by_cases h2 : o = "["
    · subst h2
      rw [if_pos rfl] at h
      obtain ⟨⟨ns, nm, ts'⟩, ha, h⟩ := R.bind_ok h
      cases h
      obtain ⟨as, mm, a1, a2, a3, a4⟩ := S.args0 _ _ _ _ _ _ ha
      rw [Bool.false_or] at a3
      subst a3
      refine ⟨.arr as, ⟨by rw [Expr.Grouped]; exact a1, by rw [Expr.act, a2]; rfl, .inl (by simp [Expr.lev]), fun h => absurd rfl h⟩, ?_⟩
      rw [Expr.toks, a4]; simp
    rw [if_neg h2] at h
    by_cases h3 : o = "[]"
    · subst h3
      rw [if_pos rfl] at h
      cases h
      exact ⟨.definit, ⟨by rw [Expr.Grouped]; trivial, by rw [Expr.act], .inl (by simp [Expr.lev]), fun h => absurd rfl h⟩, by rw [Expr.toks]; rfl⟩
    rw [if_neg h3] at h
    split at h
    · cases h
    split at h
    · rename_i hp
      obtain ⟨⟨m, t2⟩, hx, h⟩ := R.bind_ok h
      obtain ⟨r, hc, h⟩ := R.bind_ok h
      cases h
      obtain ⟨e, g1, g2, g3, g4, g5⟩ := S.expr _ _ _ _ hx
      refine ⟨.pre o e, ⟨by rw [Expr.Grouped]; exact ⟨List.contains_iff_mem.1 hp, fits_one g4, g1⟩, by rw [Expr.act, g3]; exact hc, .inl (by simp [Expr.lev]), fun _ => g5⟩, ?_⟩
      rw [Expr.toks, g2]; simp
    · cases h

theorem sound_ann {f : Nat} (S : Sound f) : ∀ ts n rest, typeAnnot (f + 1) ts = .ok (n, rest) → ∃ (k : Ref) (r : Expr) (b : Node), r.Grouped ∧ r.act = .ok b ∧
    n = k.act b ∧ r.lev ≤ 1 ∧ (k = .none → r.toks.head? ≠ some (op "&")) ∧ (k = .imm → r.toks.head? ≠ some ⟨"id", "mut"⟩) ∧
    ts = k.toks ++ (r.toks ++ rest) ∧ stops 1 rest = true := by
  intro ts n rest h
  cases ts with
  | nil => rw [typeAnnot.eq_def] at h; cases h
  | cons t ts =>
    rw [typeAnnot.eq_def] at h
    dsimp only at h
    split at h
    · rename_i hk
      cases ts with
      | nil => cases h
      | cons t1 ts =>
        dsimp only at h
        split at h
        · rename_i h1
          obtain ⟨⟨m, t2⟩, hx, h⟩ := R.bind_ok h
          cases h
          obtain ⟨e, g1, g2, g3, g4, g5⟩ := S.expr _ _ _ _ hx
          refine ⟨.mutable, e, m, g1, g3, rfl, fits_one g4, by simp, by simp, ?_, g5⟩
          rw [g2, op_eq hk.1 hk.2, id_eq h1.1, h1.2]; rfl
        · rename_i h1
          obtain ⟨⟨m, t2⟩, hx, h⟩ := R.bind_ok h
          cases h
          obtain ⟨e, g1, g2, g3, g4, g5⟩ := S.expr _ _ _ _ hx
          refine ⟨.imm, e, m, g1, g3, rfl, fits_one g4, by simp, fun _ hh => ?_, ?_, g5⟩
          · cases hts : e.toks with
            | nil => rw [hts] at hh; cases hh
            | cons a l =>
              rw [hts] at hh g2
              rw [List.cons_append] at g2
              have := (List.cons.inj g2).1
              cases hh
              exact h1 (by rw [this]; exact ⟨rfl, rfl⟩)
          · rw [g2, op_eq hk.1 hk.2]; rfl
    · rename_i hk
      obtain ⟨e, g1, g2, g3, g4, g5⟩ := S.expr _ _ _ _ h
      refine ⟨.none, e, n, g1, g3, rfl, fits_one g4, fun _ hh => ?_, by simp, g2, g5⟩
      cases hts : e.toks with
      | nil => rw [hts] at hh; cases hh
      | cons a l =>
        rw [hts] at hh g2
        rw [List.cons_append] at g2
        have := (List.cons.inj g2).1
        cases hh
        exact hk (by rw [this]; exact ⟨rfl, rfl⟩)

theorem sound_succ {f : Nat} (S : Sound f) : Sound (f + 1) where
  expr q ts n rest h := by
    rw [Parse.expr] at h
    obtain ⟨⟨m, t2⟩, hh, h⟩ := R.bind_ok h
    obtain ⟨e, g, g2⟩ := S.head q _ _ _ hh
    rw [g2]
    exact S.tails q e m t2 n rest g h
  tails q e n ts n' rest hg h := by
    rw [Parse.tails] at h
    obtain ⟨o, ho, h⟩ := R.bind_ok h
    cases o with
    | none => cases h; exact ⟨e, hg.grouped, rfl, hg.act, hg.fits, stops_of_none ho⟩
    | some x =>
      obtain ⟨n1, t1⟩ := x
      obtain ⟨e1, g1, g2⟩ := S.tail q e n ts n1 t1 hg ho
      obtain ⟨e', k1, k2, k3⟩ := S.tails q e1 n1 t1 n' rest g1 h
      exact ⟨e', k1, by rw [g2, k2], k3⟩
  head := sound_head S
  tail := sound_tail S
  ann := sound_ann S
  body endop acc named ts ns nm rest h := by
    cases ts with
    | nil => rw [argsBody.eq_def] at h; cases h
    | cons t ts =>
      rw [argsBody.eq_def] at h
      dsimp only at h
      split at h
      · rename_i hk
        cases h
        exact ⟨.nil, [], false, by rw [Args.Grouped]; trivial, by rw [Args.act], by simp, by simp, by rw [Args.toks, op_eq hk.1 hk.2]; rfl⟩
      · obtain ⟨⟨e1, t1⟩, hx, h⟩ := R.bind_ok h
        obtain ⟨⟨a, na⟩, hc, h⟩ := R.bind_ok h
        obtain ⟨e, g1, g2, g3, _, _⟩ := S.expr _ _ _ _ hx
        obtain ⟨l, l1, l2⟩ := argHead_ok (ts := t :: ts)
        rw [l1, argNode_head] at hc
        have hl : l.act e1 = .ok (a, na) := hc
        rw [l2, g2]
        rcases S.args _ _ _ _ _ _ _ (by simp) h with ⟨k1, k2, k3⟩ | ⟨as, ms, mm, k1, k2, k3, k4, k5⟩
        · refine ⟨.one l e, [a], na, by rw [Args.Grouped]; exact g1, ?_, k2, k3, ?_⟩
          · rw [Args.act, g3]; simp only [R.bind]; rw [hl]
          · rw [Args.toks]; simp only at k1; rw [k1]; simp
        · refine ⟨.cons l e as, a :: ms, na || mm, by rw [Args.Grouped]; exact ⟨g1, k1⟩, ?_, ?_, ?_, ?_⟩
          · rw [Args.act, g3]; simp only [R.bind]; rw [hl]; simp only; rw [k2]
          · rw [k3]; simp
          · rw [k4, Bool.or_assoc]
          · rw [Args.toks]; simp only at k5; rw [k5]; simp
  args endop acc named ts ns nm rest hacc h := by
    rw [Parse.args] at h
    obtain ⟨t1, ht, h⟩ := R.bind_ok h
    rw [if_neg (by simpa using hacc)] at ht
    have hb := S.body _ _ _ _ _ _ _ h
    rcases softComma_ok ht with hc | ⟨hc, r, hr⟩
    · right
      obtain ⟨as, ms, mm, k1, k2, k3, k4, k5⟩ := hb
      exact ⟨as, ms, mm, k1, k2, k3, k4, by rw [hc, k5]⟩
    · left
      rw [hc, hr] at h
      cases f with
      | zero => rw [Parse.argsBody] at h; cases h
      | succ f =>
        rw [argsBody.eq_def] at h
        dsimp only at h
        rw [if_pos ⟨rfl, rfl⟩] at h
        cases h
        exact ⟨hr, rfl, rfl⟩
  args0 endop named ts ns nm rest h := by
    rw [Parse.args] at h
    obtain ⟨t1, ht, h⟩ := R.bind_ok h
    cases ht
    obtain ⟨as, ms, mm, k1, k2, k3, k4, k5⟩ := S.body _ _ _ _ _ _ _ h
    exact ⟨as, mm, k1, by rw [k2, k3]; rfl, k4, k5⟩

theorem sound (f : Nat) : Sound f := by
  induction f with
  | zero => exact sound_zero
  | succ f ih => exact sound_succ ih

end Verif.Parse
