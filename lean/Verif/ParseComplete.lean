import Verif.ParseSpec
/-!
# Every expression that is grouped rightly is read as such
-/
namespace Verif.Parse
open Verif

/-! ### the table -/

theorem lookup_prec : BINOP.PRECEDENCE = groups.zipIdx.foldl (fun m (g : (Bool × List String) × Nat) => g.1.2.reverse.map (fun v => (v, g.2 + 2)) ++ m) [] := by
  decide

theorem prec_eq (v : String) : prec v = level v := by
  unfold prec
  rw [lookup_prec]
  by_cases h : v ∈ (groups.map (·.2)).flatten
  · have all : ∀ v ∈ (groups.map (·.2)).flatten, ((groups.zipIdx.foldl (fun m (g : (Bool × List String) × Nat) =>
        g.1.2.reverse.map (fun v => (v, g.2 + 2)) ++ m) []).lookup v).getD 0 = level v := by decide
    exact all v h
  · have h1 : level v = 0 := by
      simp only [groups, List.map_cons, List.map_nil, List.flatten_cons, List.flatten_nil, List.append_nil, List.mem_append, not_or] at h
      unfold level
      simp only [h, if_false]
    have h2 : ∀ (l : List (String × Nat)), v ∉ l.map (·.1) → l.lookup v = none := by
      intro l
      induction l with
      | nil => intro _; rfl
      | cons x l ih =>
        intro hx
        simp only [List.map_cons, List.mem_cons, not_or] at hx
        rw [List.lookup_cons, show (v == x.1) = false by simpa using hx.1]
        exact ih hx.2
    rw [h1, h2]
    · rfl
    · intro hm
      apply h
      have e : ∀ w, w ∈ (groups.zipIdx.foldl (fun m (g : (Bool × List String) × Nat) => g.1.2.reverse.map (fun v => (v, g.2 + 2)) ++ m) []).map (·.1) →
          w ∈ (groups.map (·.2)).flatten := by decide
      exact e v hm

theorem rtl_eq (p : Nat) : rtl p = right p := by
  unfold rtl right
  by_cases h : p < 18
  · have : ∀ p < 18, (BINOP.RIGHT_TO_LEFT[p]?).getD false = (p = 15 || p = 16) := by decide
    exact this p h
  · have hl : BINOP.RIGHT_TO_LEFT.length = 18 := by decide
    rw [List.getElem?_eq_none (by omega)]
    simp; omega

theorem level_all {P : Nat → Prop} (h0 : P 0) (h : ∀ v ∈ (groups.map (·.2)).flatten, P (level v)) (v : String) : P (level v) := by
  by_cases hv : v ∈ (groups.map (·.2)).flatten
  · exact h v hv
  · have h1 : level v = 0 := by
      simp only [groups, List.map_cons, List.map_nil, List.flatten_cons, List.flatten_nil, List.append_nil, List.mem_append, not_or] at hv
      unfold level
      simp only [hv, if_false]
    rw [h1]; exact h0

theorem level_le (v : String) : level v ≤ 17 := level_all (P := fun n => n ≤ 17) (by decide) (by decide) v

theorem level_ne_one (v : String) : level v ≠ 1 := level_all (P := fun n => n ≠ 1) (by decide) (by decide) v

theorem miss_iff (p q : Nat) : miss p q = true ↔ q < p ∨ (p = q ∧ right p = false) := by
  unfold miss
  rw [rtl_eq]
  simp

/-! ### what the code makes of an expression -/

def Ref.act : Ref → Node → Node
  | .none, n => n
  | .imm, n => createCall "&" { operator := true } [n]
  | .mutable, n => createCall "&mut" { operator := true } [n]

def Label.act : Label → Node → R (Node × Bool)
  | .none, n => argNode .pos n
  | .name v o, n => argNode (.named v o) n
  | .auto o, n => argNode (.auto o) n

mutual
/-- the actions of the parser, over the tree -/
def Expr.act : Expr → R Node
  | .lit k v => .ok (make k (value := v))
  | .id v => createRead v
  | .definit => .ok (make "definit")
  | .paren e => e.act.bind fun n => .ok (setParens n)
  | .arr as => as.act.bind fun x => .ok (make "arrlit" x.1 { named := x.2 })
  | .pre o e => e.act.bind fun n => createPrefix o n
  | .bin o l r => l.act.bind fun a => r.act.bind fun b => combine o a b
  | .cond c m a => c.act.bind fun x => m.act.bind fun y => a.act.bind fun z => .ok (createIf x y z)
  | .cast o l k r => l.act.bind fun a => r.act.bind fun b => combine o a (k.act b)
  | .dot e v => e.act.bind fun n => .ok (createCall v { dot := true } [n])
  | .call e as => e.act.bind fun n => as.act.bind fun x => callExpr n x.1 { named := x.2 }
  | .index e as => e.act.bind fun n => as.act.bind fun x => .ok (createCall "[]" { operator := true, named := x.2 } (n :: x.1))
  | .post o e => e.act.bind fun n => .ok (createCall (if o = "++" ∨ o = "--" then "postfix" ++ o else o) { operator := true } [n])
def Args.act : Args → R (List Node × Bool)
  | .nil => .ok ([], false)
  | .one l e => e.act.bind fun n => (l.act n).bind fun x => .ok ([x.1], x.2)
  | .cons l e rest => e.act.bind fun n => (l.act n).bind fun x => rest.act.bind fun y => .ok (x.1 :: y.1, x.2 || y.2)
end

theorem R.bind_ok {α β : Type} {x : R α} {f : α → R β} {b : β} (h : x.bind f = .ok b) : ∃ a, x = .ok a ∧ f a = .ok b := by
  cases x with
  | ok a => exact ⟨a, rfl, h⟩
  | fail => cases h
  | fuel => cases h

/-! ### where an expression ends -/

/-- no tail begins here, in the context `q` -/
def stops (q : Nat) : List Token → Bool
  | [] => false
  | t :: _ => t.kind ≠ "op" || (t.value ≠ "." && t.value ≠ "(" && t.value ≠ "[" && t.value ≠ "::" &&
      (if prec t.value ≠ 0 then miss (prec t.value) q else !POSTFIX.contains t.value))

theorem tail_stops (f q : Nat) (n : Node) (ts : List Token) (h : stops q ts = true) : tail (f + 1) q n ts = .ok none := by
  cases ts with
  | nil => cases h
  | cons t ts =>
    rw [tail.eq_def]
    dsimp only
    unfold stops at h
    by_cases hk : t.kind = "op"
    · rw [if_pos hk]
      by_cases h0 : t.value = ";"
      · rw [if_pos h0]
      · rw [if_neg h0]
        simp only [hk, ne_eq, not_true_eq_false, decide_false, Bool.false_or, Bool.and_eq_true, decide_eq_true_eq] at h
        obtain ⟨⟨⟨⟨h1, h2⟩, h3⟩, h4⟩, h5⟩ := h
        rw [if_neg h1, if_neg h2, if_neg h3]
        by_cases hp : prec t.value ≠ 0
        · rw [if_pos hp] at h5
          rw [if_pos hp, if_pos h5]
        · rw [if_neg hp] at h5
          rw [if_neg hp, if_neg (by simpa using h5), if_neg h4]
    · rw [if_neg hk]

theorem stops_mono {p q : Nat} {ts : List Token} (hpq : q ≤ p) (h : stops p ts = true) : stops q ts = true := by
  cases ts with
  | nil => cases h
  | cons t ts =>
    unfold stops at h ⊢
    by_cases hk : t.kind = "op"
    · simp only [hk, ne_eq, not_true_eq_false, decide_false, Bool.false_or, Bool.and_eq_true, decide_eq_true_eq] at h ⊢
      refine ⟨h.1, ?_⟩
      by_cases hp : prec t.value ≠ 0
      · have h5 := h.2
        rw [if_pos hp] at h5 ⊢
        rw [miss_iff] at h5 ⊢
        rcases h5 with h | ⟨h, h'⟩
        · exact .inl (by omega)
        · rcases Nat.lt_or_eq_of_le hpq with hh | hh
          · exact .inl (by omega)
          · exact .inr ⟨by omega, h'⟩
      · have h5 := h.2
        rw [if_neg hp] at h5 ⊢
        exact h5
    · simp [hk]

/-- tokens that end any expression -/
def enders : List String := [")", "]", ",", ";", ":", "}"]

theorem stops_ender (q : Nat) (v : String) (h : v ∈ enders) (ts : List Token) : stops q (op v :: ts) = true := by
  have : ∀ v ∈ enders, v ≠ "." ∧ v ≠ "(" ∧ v ≠ "[" ∧ v ≠ "::" ∧ level v = 0 ∧ POSTFIX.contains v = false := by decide
  obtain ⟨h1, h2, h3, h4, h5, h6⟩ := this v h
  unfold stops op
  simp only [prec_eq]
  simp [h1, h2, h3, h4, h5]
  simpa using h6

/-- an operator that a context does not take -/
theorem stops_op (q : Nat) (o : String) (ts : List Token) (hl : level o ≠ 0) (hm : q < level o ∨ (level o = q ∧ right q = false)) : stops q (op o :: ts) = true := by
  have : ∀ v ∈ [".", "(", "[", "::"], level v = 0 := by decide
  unfold stops op
  simp only [ne_eq, not_true_eq_false, decide_false, Bool.false_or, Bool.and_eq_true, decide_eq_true_eq, prec_eq]
  refine ⟨⟨⟨⟨?_, ?_⟩, ?_⟩, ?_⟩, ?_⟩
  · rintro rfl; exact hl (by decide)
  · rintro rfl; exact hl (by decide)
  · rintro rfl; exact hl (by decide)
  · rintro rfl; exact hl (by decide)
  · rw [if_pos hl, miss_iff]
    rcases hm with h | ⟨h, h'⟩
    · exact .inl h
    · exact .inr ⟨h, h ▸ h'⟩

/-! ### the first tokens of an expression -/

/-- tokens an expression may begin with -/
def Opens (t : Token) : Prop :=
  t.kind ∈ ["int", "real", "str", "char"] ∨ t.kind = "id" ∨ (t.kind = "op" ∧ t.value ∈ ["(", "[", "[]"] ++ prefixOps)

theorem opens_append {l r : List Token} (h : ∃ t ts, l = t :: ts ∧ Opens t) : ∃ t ts, l ++ r = t :: ts ∧ Opens t := by
  obtain ⟨t, ts, rfl, h⟩ := h
  exact ⟨t, ts ++ r, rfl, h⟩

theorem opens : ∀ (e : Expr), e.Grouped → ∃ t ts, e.toks = t :: ts ∧ Opens t
  | .lit k v, h => ⟨_, _, by rw [Expr.toks], .inl (by rw [Expr.Grouped] at h; exact h)⟩
  | .id v, _ => ⟨_, _, by rw [Expr.toks], .inr (.inl rfl)⟩
  | .definit, _ => ⟨_, _, by rw [Expr.toks], .inr (.inr ⟨rfl, by decide⟩)⟩
  | .paren e, _ => ⟨_, _, by rw [Expr.toks], .inr (.inr ⟨rfl, by decide⟩)⟩
  | .arr as, _ => ⟨_, _, by rw [Expr.toks], .inr (.inr ⟨rfl, by decide⟩)⟩
  | .pre o e, h => ⟨_, _, by rw [Expr.toks], .inr (.inr ⟨rfl, by rw [Expr.Grouped] at h; exact List.mem_append.2 (.inr h.1)⟩)⟩
  | .bin o l r, h => by rw [Expr.Grouped] at h; rw [Expr.toks]; exact opens_append (opens l h.2.2.2.2.1)
  | .cond c m a, h => by rw [Expr.Grouped] at h; rw [Expr.toks]; exact opens_append (opens c h.1)
  | .cast o l k r, h => by rw [Expr.Grouped] at h; rw [Expr.toks]; exact opens_append (opens l h.2.1)
  | .dot e v, h => by rw [Expr.Grouped] at h; rw [Expr.toks]; exact opens_append (opens e h.1)
  | .call e as, h => by rw [Expr.Grouped] at h; rw [Expr.toks]; exact opens_append (opens e h.1)
  | .index e as, h => by rw [Expr.Grouped] at h; rw [Expr.toks]; exact opens_append (opens e h.1)
  | .post o e, h => by rw [Expr.Grouped] at h; rw [Expr.toks]; exact opens_append (opens e h.2.1)

/-- not a name with a colon after it -/
def Unlabelled : List Token → Prop
  | a :: b :: _ => a.kind = "id" → b.kind = "op" → b.value ≠ ":" ∧ b.value ≠ "?:"
  | _ => True

theorem unlabelled_append {l : List Token} (hne : l ≠ []) (h : Unlabelled l) {o : String} (ho : o ≠ ":" ∧ o ≠ "?:") (r : List Token) :
    Unlabelled (l ++ op o :: r) := by
  cases l with
  | nil => exact absurd rfl hne
  | cons a l =>
    cases l with
    | nil => exact fun _ _ => ho
    | cons b l => exact h

theorem toks_ne {e : Expr} (h : e.Grouped) : e.toks ≠ [] := by
  obtain ⟨t, ts, e', _⟩ := opens e h
  rw [e']; simp

theorem level_colon {o : String} (h : level o ≠ 0) : o ≠ ":" ∧ o ≠ "?:" :=
  ⟨by rintro rfl; exact h (by decide), by rintro rfl; exact h (by decide)⟩

theorem unlabelled_op (o : String) (l : List Token) : Unlabelled (op o :: l) := by
  cases l with
  | nil => trivial
  | cons b l => exact fun h => absurd h (by simp [op])

theorem unlabelled : ∀ (e : Expr), e.Grouped → Unlabelled e.toks
  | .lit k v, _ => by rw [Expr.toks]; trivial
  | .id v, _ => by rw [Expr.toks]; trivial
  | .definit, _ => by rw [Expr.toks]; trivial
  | .paren e, _ => by rw [Expr.toks]; exact unlabelled_op _ _
  | .arr as, _ => by rw [Expr.toks]; exact unlabelled_op _ _
  | .pre o e, _ => by rw [Expr.toks]; exact unlabelled_op _ _
  | .bin o l r, h => by
    rw [Expr.Grouped] at h; rw [Expr.toks]
    exact unlabelled_append (toks_ne h.2.2.2.2.1) (unlabelled l h.2.2.2.2.1) (level_colon h.1) _
  | .cond c m a, h => by
    rw [Expr.Grouped] at h; rw [Expr.toks]
    exact unlabelled_append (toks_ne h.1) (unlabelled c h.1) (by decide) _
  | .cast o l k r, h => by
    rw [Expr.Grouped] at h; rw [Expr.toks]
    exact unlabelled_append (toks_ne h.2.1) (unlabelled l h.2.1) (by rcases h.1 with rfl | rfl <;> decide) _
  | .dot e v, h => by
    rw [Expr.Grouped] at h; rw [Expr.toks]
    exact unlabelled_append (toks_ne h.1) (unlabelled e h.1) (by decide) _
  | .call e as, h => by
    rw [Expr.Grouped] at h; rw [Expr.toks]
    exact unlabelled_append (toks_ne h.1) (unlabelled e h.1) (by decide) _
  | .index e as, h => by
    rw [Expr.Grouped] at h; rw [Expr.toks]
    exact unlabelled_append (toks_ne h.1) (unlabelled e h.1) (by decide) _
  | .post o e, h => by
    rw [Expr.Grouped] at h; rw [Expr.toks]
    exact unlabelled_append (toks_ne h.2.1) (unlabelled e h.2.1) (by
      have : ∀ o ∈ postfixOps, o ≠ ":" ∧ o ≠ "?:" := by decide
      exact this o h.1) _

/-- the head of a labelled argument is read as its label -/
def Label.head : Label → ArgHead
  | .none => .pos
  | .name v o => .named v o
  | .auto o => .auto o

theorem argHead_label (l : Label) (e : Expr) (h : e.Grouped) (o : String) (ho : o ≠ ":" ∧ o ≠ "?:") (rest : List Token) :
    argHead (l.toks ++ (e.toks ++ op o :: rest)) = (l.head, e.toks ++ op o :: rest) := by
  cases l with
  | name v o => cases o <;> simp [Label.toks, Label.head, argHead, colon, op]
  | auto o => cases o <;> simp [Label.toks, Label.head, argHead, colon, op]
  | none =>
    show argHead (e.toks ++ op o :: rest) = (.pos, e.toks ++ op o :: rest)
    have hu := unlabelled_append (toks_ne h) (unlabelled e h) ho rest
    obtain ⟨t, ts, e1, e2⟩ := opens e h
    have hc : ¬ (t.kind = "op" ∧ t.value = "?:") ∧ ¬ (t.kind = "op" ∧ t.value = ":") := by
      rcases e2 with e2 | e2 | ⟨e2, e3⟩
      · constructor <;> (intro hh; rw [hh.1] at e2; exact absurd e2 (by decide))
      · constructor <;> (intro hh; rw [hh.1] at e2; exact absurd e2 (by decide))
      · constructor <;> (intro hh; rw [hh.2] at e3; exact absurd e3 (by decide))
    rw [e1] at hu ⊢
    rw [List.cons_append] at hu ⊢
    unfold argHead
    dsimp only
    rw [if_neg hc.1, if_neg hc.2]
    by_cases hid : t.kind = "id"
    · rw [if_pos hid]
      cases hx : ts ++ op o :: rest with
      | nil => rfl
      | cons t1 ts' =>
        rw [hx] at hu
        have hu := hu hid
        dsimp only
        rw [if_neg (by rintro ⟨a, b⟩; exact (hu a).1 b), if_neg (by rintro ⟨a, b⟩; exact (hu a).2 b)]
    · rw [if_neg hid]

/-! ### eventually -/

/-- from some amount of fuel on -/
def Ev (P : Nat → Prop) : Prop := ∃ N, ∀ f, N ≤ f → P f

theorem Ev.step {P : Nat → Prop} (h : Ev fun f => P (f + 1)) : Ev P := by
  obtain ⟨N, h⟩ := h
  refine ⟨N + 1, fun f hf => ?_⟩
  obtain ⟨g, rfl⟩ : ∃ g, f = g + 1 := ⟨f - 1, by omega⟩
  exact h g (by omega)

theorem Ev.imp {P Q : Nat → Prop} (h : Ev P) (hi : ∀ f, P f → Q f) : Ev Q := by
  obtain ⟨N, h⟩ := h
  exact ⟨N, fun f hf => hi f (h f hf)⟩

theorem Ev.and {P Q : Nat → Prop} (h : Ev P) (k : Ev Q) : Ev fun f => P f ∧ Q f := by
  obtain ⟨N, h⟩ := h
  obtain ⟨M, k⟩ := k
  exact ⟨max N M, fun f hf => ⟨h f (by omega), k f (by omega)⟩⟩

theorem Ev.of {P : Nat → Prop} (h : ∀ f, P f) : Ev P := ⟨0, fun f _ => h f⟩

theorem tails_stop (q : Nat) (n : Node) (ts : List Token) (h : stops q ts = true) : Ev fun f => tails f q n ts = .ok (n, ts) := by
  apply Ev.step
  apply Ev.step
  exact Ev.of fun f => by rw [tails, tail_stops f q n ts h]; rfl

/-- a tail that is taken -/
theorem tails_go {q : Nat} {n n' : Node} {ts ts' : List Token} {X : R (Node × List Token)} (h : Ev fun f => tail f q n ts = .ok (some (n', ts')))
    (k : Ev fun f => tails f q n' ts' = X) : Ev fun f => tails f q n ts = X := by
  apply Ev.step
  exact (h.and k).imp fun f ⟨h, k⟩ => by rw [tails, h]; exact k

/-- the context `q` admits the expression -/
def Fits (q : Nat) (e : Expr) : Prop := e.lev ≤ 1 ∨ miss e.lev q = false

theorem miss_mono {a b q : Nat} (h : a ≤ b) (hm : miss b q = false) : miss a q = false := by
  rw [Bool.eq_false_iff, Ne, miss_iff] at hm ⊢
  rintro (h1 | ⟨h1, h2⟩)
  · omega
  · rcases Nat.lt_or_eq_of_le h with hh | hh
    · omega
    · exact hm (.inr ⟨by omega, hh ▸ h2⟩)

theorem fits_mono {q : Nat} {a b : Expr} (h : a.lev ≤ b.lev) (hf : Fits q b) : Fits q a := by
  rcases hf with hf | hf
  · exact .inl (by omega)
  · exact .inr (miss_mono h hf)

theorem edge_le_lev (e : Expr) : e.edge ≤ e.lev := by
  cases e <;> simp only [Expr.edge, Expr.lev] <;> omega

theorem lev_le : ∀ (e : Expr), e.lev ≤ 17
  | .bin o l r => by have := level_le o; have := lev_le l; simp only [Expr.lev]; omega
  | .cond c _ _ => by have := lev_le c; simp only [Expr.lev]; omega
  | .cast _ l _ _ => by have := lev_le l; simp only [Expr.lev]; omega
  | .pre _ _ | .lit _ _ | .id _ | .definit | .paren _ | .arr _ | .dot _ _ | .call _ _ | .index _ _ | .post _ _ => by simp [Expr.lev]

theorem lev_zero {e : Expr} (hg : e.Grouped) (h : e.edge = 0) : e.lev = 0 := by
  cases e with
  | bin o l r => rw [Expr.Grouped] at hg; exact absurd h hg.1
  | _ => first | rfl | (simp [Expr.edge] at h)

theorem fits_zero {q : Nat} {e : Expr} (hg : e.Grouped) (h : e.edge = 0) : Fits q e := .inl (by rw [lev_zero hg h]; omega)

theorem expr_head {q : Nat} {n : Node} {ts rest : List Token} {X : R (Node × List Token)} (h : Ev fun f => head f ts = .ok (n, rest))
    (k : Ev fun f => tails f q n rest = X) : Ev fun f => expr f q ts = X := by
  apply Ev.step
  exact (h.and k).imp fun f ⟨h, k⟩ => by rw [expr, h]; exact k

theorem fits_reset (e : Expr) (_ : e.Grouped) : Fits P_RESET e := by
  right
  have hl : e.lev ≤ 17 := lev_le e
  rw [Bool.eq_false_iff, Ne, miss_iff]
  unfold P_RESET
  omega

theorem opens_endop {t : Token} (h : Opens t) (endop : String) (he : endop = ")" ∨ endop = "]") : ¬ (t.kind = "op" ∧ t.value = endop) := by
  rintro ⟨h1, h2⟩
  rcases h with h | h | ⟨_, h⟩
  · rw [h1] at h; exact absurd h (by decide)
  · rw [h1] at h; exact absurd h (by decide)
  · rw [h2] at h
    rcases he with rfl | rfl <;> exact absurd h (by decide)

/-- the first token of an argument does not end the list -/
theorem label_first (l : Label) (e : Expr) (h : e.Grouped) (endop : String) (he : endop = ")" ∨ endop = "]") (rest : List Token) :
    ∃ t ts, l.toks ++ (e.toks ++ rest) = t :: ts ∧ ¬ (t.kind = "op" ∧ t.value = endop) := by
  cases l with
  | none =>
    obtain ⟨t, ts, e1, e2⟩ := opens e h
    exact ⟨t, ts ++ rest, by rw [e1]; rfl, opens_endop e2 endop he⟩
  | name v o => exact ⟨_, _, rfl, by rintro ⟨h, _⟩; exact absurd h (by simp)⟩
  | auto o =>
    refine ⟨_, _, rfl, ?_⟩
    rintro ⟨_, h⟩
    cases o <;> rcases he with rfl | rfl <;> exact absurd h (by decide)

theorem special_plain (v : String) (hv : v ≠ "_") (hr : v ∉ reserved) (rest : List Token) (hne : rest ≠ []) : special v rest = false := by
  cases rest with
  | nil => exact absurd rfl hne
  | cons t ts =>
    simp only [reserved, List.mem_cons, List.not_mem_nil, or_false, not_or] at hr
    unfold special
    simp [hv, hr.1, hr.2.1, hr.2.2.1, hr.2.2.2.1, hr.2.2.2.2.1, hr.2.2.2.2.2]

/-- one argument, and what follows it -/
theorem arg_go (l : Label) (e : Expr) (he : e.Grouped) (n : Node) (x : Node × Bool) (ha : l.act n = .ok x) (endop : String) (hend : endop = ")" ∨ endop = "]")
    (acc : List Node) (named : Bool) (o : String) (hoc : o ≠ ":" ∧ o ≠ "?:") (rest : List Token) {X : R (List Node × Bool × List Token)}
    (h : Ev fun f => expr f P_RESET (e.toks ++ op o :: rest) = .ok (n, op o :: rest))
    (k : Ev fun f => args f endop (acc ++ [x.1]) (named || x.2) (op o :: rest) = X) :
    Ev fun f => argsBody f endop acc named (l.toks ++ (e.toks ++ op o :: rest)) = X := by
  apply Ev.step
  refine (h.and k).imp fun f ⟨h, k⟩ => ?_
  obtain ⟨t, ts, e1, e2⟩ := label_first l e he endop hend (op o :: rest)
  have hh := argHead_label l e he o hoc rest
  rw [e1] at hh ⊢
  rw [argsBody.eq_def]
  dsimp only
  rw [if_neg e2, hh]
  dsimp only
  rw [h]
  simp only [R.bind]
  have : argNode l.head n = .ok x := by cases l <;> exact ha
  rw [this]
  exact k

mutual

theorem complete : ∀ (e : Expr), e.Grouped → e.Plain → ∀ (n : Node), e.act = .ok n → ∀ (q : Nat), Fits q e → ∀ (rest : List Token), rest ≠ [] →
    (e.edge ≠ 0 → stops e.edge rest = true) → ∀ (X : R (Node × List Token)), (Ev fun f => tails f q n rest = X) → Ev fun f => expr f q (e.toks ++ rest) = X
  | .lit k v, hg, _, n, ha, q, _, rest, _, _, X, ht => by
    rw [Expr.act] at ha
    cases ha
    refine expr_head (Ev.step (Ev.of fun f => ?_)) ht
    rw [Expr.toks, List.cons_append, List.nil_append, head.eq_def]
    dsimp only
    have : k = "int" ∨ k = "real" ∨ k = "str" ∨ k = "char" := by
      rw [Expr.Grouped] at hg
      simpa using hg
    rw [if_pos this]
  | .id v, hg, hp, n, ha, q, _, rest, hr, _, X, ht => by
    rw [Expr.Grouped] at hg
    rw [Expr.Plain] at hp
    rw [Expr.act] at ha
    refine expr_head (Ev.step (Ev.of fun f => ?_)) ht
    rw [Expr.toks, List.cons_append, List.nil_append, head.eq_def]
    dsimp only
    rw [if_neg (by decide), if_pos rfl, special_plain v hg.1 hp rest hr, ha]
    rfl
  | .definit, _, _, n, ha, q, _, rest, _, _, X, ht => by
    rw [Expr.act] at ha
    cases ha
    refine expr_head (Ev.step (Ev.of fun f => ?_)) ht
    rw [Expr.toks, List.cons_append, List.nil_append, head.eq_def]
    dsimp only
    rfl
  | .paren e, hg, hp, n, ha, q, _, rest, hr, _, X, ht => by
    rw [Expr.Grouped] at hg
    rw [Expr.Plain] at hp
    rw [Expr.act] at ha
    obtain ⟨m, hm, ha⟩ := R.bind_ok ha
    cases ha
    refine expr_head (Ev.step ?_) ht
    have ih := complete e hg hp m hm P_RESET (fits_reset e hg) (op ")" :: rest) (by simp) (fun _ => stops_ender _ ")" (by decide) _) _
      (tails_stop P_RESET m (op ")" :: rest) (stops_ender _ ")" (by decide) _))
    refine ih.imp fun f ih => ?_
    rw [Expr.toks, List.cons_append, List.append_assoc, List.cons_append, List.nil_append, head.eq_def]
    dsimp only
    dsimp only [op]
    rw [if_neg (by decide), if_neg (by decide), if_pos rfl, if_pos rfl]
    rw [show (⟨"op", ")"⟩ : Token) = op ")" from rfl, ih]
    rfl
  | .arr as, hg, hp, n, ha, q, _, rest, hr, _, X, ht => by
    rw [Expr.Grouped] at hg
    rw [Expr.Plain] at hp
    rw [Expr.act] at ha
    obtain ⟨⟨ns, nm⟩, hm, ha⟩ := R.bind_ok ha
    cases ha
    refine expr_head (Ev.step ?_) ht
    have ih := completeArgs as hg hp ns nm hm "]" (.inr rfl) [] false rest
    have ih' : Ev fun f => args f "]" [] false (as.toks ++ op "]" :: rest) = .ok (ns, nm, rest) := by
      apply Ev.step
      refine ih.imp fun f ih => ?_
      rw [args]
      simp only [List.isEmpty_nil, if_true, R.bind]
      simpa using ih
    refine ih'.imp fun f ih => ?_
    rw [Expr.toks, List.cons_append, List.append_assoc, List.cons_append, List.nil_append, head.eq_def]
    dsimp only
    dsimp only [op]
    rw [if_neg (by decide), if_neg (by decide), if_pos rfl, if_neg (by decide), if_pos rfl]
    rw [show (⟨"op", "]"⟩ : Token) = op "]" from rfl, ih]
    rfl
  | .pre o e, hg, hp, n, ha, q, _, rest, hr, hs, X, ht => by
    rw [Expr.Grouped] at hg
    rw [Expr.Plain] at hp
    rw [Expr.act] at ha
    obtain ⟨m, hm, ha⟩ := R.bind_ok ha
    have hs1 : stops 1 rest = true := hs (by simp [Expr.edge])
    refine expr_head (Ev.step ?_) ht
    have ih := complete e hg.2.2 hp m hm P_PREFIX_UNARY (.inl hg.2.1) rest hr (fun _ => stops_mono (Nat.le_trans (edge_le_lev e) hg.2.1) hs1) _
      (tails_stop P_PREFIX_UNARY m rest hs1)
    refine ih.imp fun f ih => ?_
    have ho : ∀ o ∈ prefixOps, o ≠ "(" ∧ o ≠ "[" ∧ o ≠ "[]" ∧ ¬ (o = "{" ∨ o = "$" ∨ o = "|" ∨ o = "||" ∨ o = "." ∨ o = "::") ∧ PREFIX.contains o = true := by
      decide
    obtain ⟨o1, o2, o3, o4, o5⟩ := ho o hg.1
    rw [Expr.toks, List.cons_append, head.eq_def]
    dsimp only
    rw [if_neg (by decide), if_neg (by decide), if_pos rfl, if_neg o1, if_neg o2, if_neg o3, if_neg o4, if_pos o5, ih]
    simp only [R.bind]
    rw [ha]
  | .bin o l r, hg, hp, n, ha, q, hf, rest, hr, hs, X, ht => by
    rw [Expr.Grouped] at hg
    obtain ⟨hl, h1, h2, h3, gl, gr, hd⟩ := hg
    rw [Expr.Plain] at hp
    rw [Expr.act] at ha
    obtain ⟨a, ea, ha⟩ := R.bind_ok ha
    obtain ⟨b, eb, ha⟩ := R.bind_ok ha
    have hs := hs hl
    change stops (level o) rest = true at hs
    have hone := level_ne_one o
    have hlo : level o ≤ (Expr.bin o l r).lev := Nat.le_max_left _ _
    have hmiss : miss (level o) q = false := by
      rcases hf with hf | hf
      · omega
      · exact miss_mono hlo hf
    have ihr := complete r gr hp.2 b eb (level o) (by
        by_cases hri : right (level o) = true
        · rw [if_pos hri] at hd
          right
          rw [Bool.eq_false_iff, Ne, miss_iff]
          rintro (h | ⟨h, h'⟩)
          · omega
          · rw [h, hri] at h'; cases h'
        · rw [if_neg hri] at hd
          right
          rw [Bool.eq_false_iff, Ne, miss_iff]
          omega) rest hr (fun _ => stops_mono (by have := edge_le_lev r; split at hd <;> omega) hs) _ (tails_stop (level o) b rest hs)
    have step : Ev fun f => tail f q a (op o :: (r.toks ++ rest)) = .ok (some (n, rest)) := by
      apply Ev.step
      refine ihr.imp fun f ih => ?_
      rw [tail.eq_def]
      dsimp only
      have ns : ∀ v, level v = 0 → o ≠ v := fun v hv h => hl (h ▸ hv)
      rw [if_pos rfl, if_neg (ns ";" (by decide)), if_neg (ns "." (by decide)), if_neg (ns "(" (by decide)), if_neg (ns "[" (by decide)), prec_eq, if_pos hl,
        if_neg (by rw [hmiss]; simp), if_neg h1, if_neg (by rintro (h | h); exact h2 h; exact h3 h), ih]
      simp only [R.bind]
      rw [ha]
    have ihl := complete l gl hp.1 a ea q (fits_mono (Nat.le_max_right _ _) hf) (op o :: (r.toks ++ rest)) (by simp) (fun h0 => by
        apply stops_op _ _ _ hl
        by_cases hri : right (level o) = true
        · rw [if_pos hri] at hd; exact .inl hd.1
        · rw [if_neg hri] at hd
          have hri' : right (level o) = false := by simpa using hri
          rcases Nat.lt_or_ge l.edge (level o) with h | h
          · exact .inl h
          · have : level o = l.edge := by omega
            exact .inr ⟨this, this ▸ hri'⟩) X (tails_go step ht)
    rw [Expr.toks, List.append_assoc, List.cons_append]
    exact ihl
  | .cond c m al, hg, hp, n, ha, q, hf, rest, hr, hs, X, ht => by
    rw [Expr.Grouped] at hg
    obtain ⟨gc, gm, ga, hc, hal⟩ := hg
    rw [Expr.Plain] at hp
    rw [Expr.act] at ha
    obtain ⟨x, ex, ha⟩ := R.bind_ok ha
    obtain ⟨y, ey, ha⟩ := R.bind_ok ha
    obtain ⟨z, ez, ha⟩ := R.bind_ok ha
    cases ha
    have hs : stops 15 rest = true := hs (by simp [Expr.edge])
    have hmiss : miss 15 q = false := by
      rcases hf with hf | hf
      · have : 15 ≤ (Expr.cond c m al).lev := Nat.le_max_left _ _
        omega
      · exact miss_mono (Nat.le_max_left _ _) hf
    have iha := complete al ga hp.2.2 z ez 15 (by
        right
        rw [Bool.eq_false_iff, Ne, miss_iff]
        rintro (h | ⟨h, h'⟩)
        · omega
        · rw [h] at h'; exact absurd h' (by decide)) rest hr (fun _ => stops_mono (Nat.le_trans (edge_le_lev al) hal) hs) _ (tails_stop 15 z rest hs)
    have ihm := complete m gm hp.2.1 y ey P_RESET (fits_reset m gm) (op ":" :: (al.toks ++ rest)) (by simp) (fun _ => stops_ender _ ":" (by decide) _) _
      (tails_stop P_RESET y _ (stops_ender _ ":" (by decide) _))
    have step : Ev fun f => tail f q x (op "?" :: (m.toks ++ op ":" :: (al.toks ++ rest))) = .ok (some (createIf x y z, rest)) := by
      apply Ev.step
      refine (ihm.and iha).imp fun f ⟨im, ia⟩ => ?_
      rw [tail.eq_def]
      dsimp only
      dsimp only [op]
      have e15 : prec "?" = 15 := by rw [prec_eq]; decide
      rw [if_pos rfl, if_neg (by decide), if_neg (by decide), if_neg (by decide), if_neg (by decide), e15, if_pos (by decide),
        if_neg (by rw [hmiss]; simp), if_pos rfl]
      rw [show (⟨"op", ":"⟩ : Token) = op ":" from rfl, im]
      simp only [R.bind, consumeOp, and_self, if_true]
      rw [ia]
    have ihc := complete c gc hp.1 x ex q (fits_mono (Nat.le_max_right _ _) hf) (op "?" :: (m.toks ++ op ":" :: (al.toks ++ rest))) (by simp) (fun _ => by
        have e15 : level "?" = 15 := by decide
        exact stops_op _ _ _ (by decide) (.inl (by rw [e15]; exact hc))) X (tails_go step ht)
    rw [Expr.toks, List.append_assoc, List.cons_append, List.append_assoc, List.cons_append]
    exact ihc
  | .cast o l k r, hg, hp, n, ha, q, hf, rest, hr, hs, X, ht => by
    rw [Expr.Grouped] at hg
    obtain ⟨ho, gl, gr, hl, hr1, hk1, hk2⟩ := hg
    rw [Expr.Plain] at hp
    rw [Expr.act] at ha
    obtain ⟨a, ea, ha⟩ := R.bind_ok ha
    obtain ⟨b, eb, ha⟩ := R.bind_ok ha
    have hs1 : stops 1 rest = true := hs (by simp [Expr.edge])
    have e10 : level o = 10 := by rcases ho with rfl | rfl <;> decide
    have hmiss : miss 10 q = false := by
      rcases hf with hf | hf
      · have : 10 ≤ (Expr.cast o l k r).lev := Nat.le_max_left _ _
        omega
      · exact miss_mono (Nat.le_max_left _ _) hf
    have ihr := complete r gr hp.2 b eb P_PREFIX_UNARY (.inl hr1) rest hr (fun _ => stops_mono (Nat.le_trans (edge_le_lev r) hr1) hs1) _ (tails_stop P_PREFIX_UNARY b rest hs1)
    have ann : Ev fun f => typeAnnot f (k.toks ++ (r.toks ++ rest)) = .ok (k.act b, rest) := by
      apply Ev.step
      refine ihr.imp fun f ih => ?_
      obtain ⟨t, ts, e1, e2⟩ := opens r gr
      cases k with
      | none =>
        have h := hk1 rfl
        rw [e1] at h ih
        show typeAnnot (f + 1) (r.toks ++ rest) = _
        rw [e1, List.cons_append, typeAnnot.eq_def]
        dsimp only
        rw [if_neg]
        · exact ih
        · rintro ⟨a1, a2⟩
          apply h
          cases t
          simp only at a1 a2
          rw [a1, a2]; rfl
      | imm =>
        have h := hk2 rfl
        rw [e1] at h ih
        show typeAnnot (f + 1) (op "&" :: (r.toks ++ rest)) = _
        rw [e1, List.cons_append, typeAnnot.eq_def]
        dsimp only
        dsimp only [op]
        rw [if_pos ⟨rfl, rfl⟩, if_neg, ← List.cons_append, ih]
        · rfl
        · rintro ⟨a1, a2⟩
          apply h
          cases t
          simp only at a1 a2
          rw [a1, a2]; rfl
      | mutable =>
        show typeAnnot (f + 1) (op "&" :: ⟨"id", "mut"⟩ :: (r.toks ++ rest)) = _
        rw [typeAnnot.eq_def]
        dsimp only
        dsimp only [op]
        rw [if_pos ⟨rfl, rfl⟩, if_pos ⟨rfl, rfl⟩, ih]
        rfl
    have step : Ev fun f => tail f q a (op o :: (k.toks ++ (r.toks ++ rest))) = .ok (some (n, rest)) := by
      apply Ev.step
      refine ann.imp fun f ih => ?_
      rw [tail.eq_def]
      dsimp only
      have ns : ∀ v, level v = 0 → o ≠ v := fun v hv h => by rw [h, hv] at e10; omega
      rw [if_pos rfl, if_neg (ns ";" (by decide)), if_neg (ns "." (by decide)), if_neg (ns "(" (by decide)), if_neg (ns "[" (by decide)), prec_eq, e10,
        if_pos (by decide), if_neg (by rw [hmiss]; simp), if_neg (by rcases ho with rfl | rfl <;> decide), if_pos ho, ih]
      simp only [R.bind]
      rw [ha]
    have ihl := complete l gl hp.1 a ea q (fits_mono (Nat.le_max_right _ _) hf) (op o :: (k.toks ++ (r.toks ++ rest))) (by simp) (fun _ => by
        apply stops_op _ _ _ (by omega)
        rcases Nat.lt_or_ge l.edge 10 with h | h
        · exact .inl (by omega)
        · have : l.edge = 10 := by omega
          exact .inr ⟨by omega, by rw [this]; decide⟩) X (tails_go step ht)
    rw [Expr.toks, List.append_assoc, List.cons_append, List.append_assoc]
    exact ihl
  | .dot e v, hg, hp, n, ha, q, hf, rest, hr, hs, X, ht => by
    rw [Expr.Grouped] at hg
    rw [Expr.Plain] at hp
    rw [Expr.act] at ha
    obtain ⟨a, ea, ha⟩ := R.bind_ok ha
    cases ha
    have step : Ev fun f => tail f q a (op "." :: ⟨"id", v⟩ :: rest) = .ok (some (createCall v { dot := true } [a], rest)) := by
      apply Ev.step
      refine Ev.of fun f => ?_
      rw [tail.eq_def]
      dsimp only
      rw [if_pos rfl, if_neg (by decide), if_pos rfl, if_pos rfl]
    have ih := complete e hg.1 hp a ea q (fits_zero hg.1 hg.2) _ (by simp) (fun h => absurd hg.2 h) X (tails_go step ht)
    rw [Expr.toks, List.append_assoc]
    exact ih
  | .call e as, hg, hp, n, ha, q, hf, rest, hr, hs, X, ht => by
    rw [Expr.Grouped] at hg
    rw [Expr.Plain] at hp
    rw [Expr.act] at ha
    obtain ⟨a, ea, ha⟩ := R.bind_ok ha
    obtain ⟨⟨ns, nm⟩, es, ha⟩ := R.bind_ok ha
    have ih := completeArgs as hg.2.2 hp.2 ns nm es ")" (.inl rfl) [] false rest
    have ih' : Ev fun f => args f ")" [] false (as.toks ++ op ")" :: rest) = .ok (ns, nm, rest) := by
      apply Ev.step
      refine ih.imp fun f ih => ?_
      rw [args]
      simp only [List.isEmpty_nil, if_true, R.bind]
      simpa using ih
    have step : Ev fun f => tail f q a (op "(" :: (as.toks ++ op ")" :: rest)) = .ok (some (n, rest)) := by
      apply Ev.step
      refine ih'.imp fun f ih => ?_
      rw [tail.eq_def]
      dsimp only
      dsimp only [op]
      rw [if_pos rfl, if_neg (by decide), if_neg (by decide), if_pos rfl, show (⟨"op", ")"⟩ : Token) = op ")" from rfl, ih]
      simp only [R.bind]
      rw [ha]
    have ih := complete e hg.1 hp.1 a ea q (fits_zero hg.1 hg.2.1) _ (by simp) (fun h => absurd hg.2.1 h) X (tails_go step ht)
    rw [Expr.toks, List.append_assoc, List.cons_append, List.append_assoc]
    exact ih
  | .index e as, hg, hp, n, ha, q, hf, rest, hr, hs, X, ht => by
    rw [Expr.Grouped] at hg
    rw [Expr.Plain] at hp
    rw [Expr.act] at ha
    obtain ⟨a, ea, ha⟩ := R.bind_ok ha
    obtain ⟨⟨ns, nm⟩, es, ha⟩ := R.bind_ok ha
    cases ha
    have ih := completeArgs as hg.2.2 hp.2 ns nm es "]" (.inr rfl) [] false rest
    have ih' : Ev fun f => args f "]" [] false (as.toks ++ op "]" :: rest) = .ok (ns, nm, rest) := by
      apply Ev.step
      refine ih.imp fun f ih => ?_
      rw [args]
      simp only [List.isEmpty_nil, if_true, R.bind]
      simpa using ih
    have step : Ev fun f => tail f q a (op "[" :: (as.toks ++ op "]" :: rest)) =
        .ok (some (createCall "[]" { operator := true, named := nm } (a :: ns), rest)) := by
      apply Ev.step
      refine ih'.imp fun f ih => ?_
      rw [tail.eq_def]
      dsimp only
      dsimp only [op]
      rw [if_pos rfl, if_neg (by decide), if_neg (by decide), if_neg (by decide), if_pos rfl, show (⟨"op", "]"⟩ : Token) = op "]" from rfl, ih]
      rfl
    have ih := complete e hg.1 hp.1 a ea q (fits_zero hg.1 hg.2.1) _ (by simp) (fun h => absurd hg.2.1 h) X (tails_go step ht)
    rw [Expr.toks, List.append_assoc, List.cons_append, List.append_assoc]
    exact ih
  | .post o e, hg, hp, n, ha, q, hf, rest, hr, hs, X, ht => by
    rw [Expr.Grouped] at hg
    rw [Expr.Plain] at hp
    rw [Expr.act] at ha
    obtain ⟨a, ea, ha⟩ := R.bind_ok ha
    cases ha
    have ho : ∀ o ∈ postfixOps, o ≠ ";" ∧ o ≠ "." ∧ o ≠ "(" ∧ o ≠ "[" ∧ level o = 0 ∧ POSTFIX.contains o = true := by decide
    obtain ⟨o1, o2, o3, o4, o5, o6⟩ := ho o hg.1
    have step : Ev fun f => tail f q a (op o :: rest) =
        .ok (some (createCall (if o = "++" ∨ o = "--" then "postfix" ++ o else o) { operator := true } [a], rest)) := by
      apply Ev.step
      refine Ev.of fun f => ?_
      rw [tail.eq_def]
      dsimp only
      rw [if_pos rfl, if_neg o1, if_neg o2, if_neg o3, if_neg o4, prec_eq, if_neg (by simpa using o5), if_pos o6]
    have ih := complete e hg.2.1 hp a ea q (fits_zero hg.2.1 hg.2.2) _ (by simp) (fun h => absurd hg.2.2 h) X (tails_go step ht)
    rw [Expr.toks, List.append_assoc]
    exact ih

theorem completeArgs : ∀ (as : Args), as.Grouped → as.Plain → ∀ (ns : List Node) (nm : Bool), as.act = .ok (ns, nm) → ∀ (endop : String),
    endop = ")" ∨ endop = "]" → ∀ (acc : List Node) (named : Bool) (rest : List Token),
    Ev fun f => argsBody f endop acc named (as.toks ++ op endop :: rest) = .ok (acc ++ ns, named || nm, rest)
  | .nil, _, _, ns, nm, ha, endop, hend, acc, named, rest => by
    rw [Args.act] at ha
    cases ha
    apply Ev.step
    refine Ev.of fun f => ?_
    rw [Args.toks, List.nil_append, argsBody.eq_def]
    dsimp only
    dsimp only [op]
    rw [if_pos ⟨rfl, rfl⟩, List.append_nil, Bool.or_false]
  | .one l e, hg, hp, ns, nm, ha, endop, hend, acc, named, rest => by
    rw [Args.Grouped] at hg
    rw [Args.Plain] at hp
    rw [Args.act] at ha
    obtain ⟨n, en, ha⟩ := R.bind_ok ha
    obtain ⟨x, ex, ha⟩ := R.bind_ok ha
    cases ha
    have hen : endop ∈ enders ∧ endop ≠ ":" ∧ endop ≠ "?:" := by rcases hend with rfl | rfl <;> decide
    have ih := complete e hg hp n en P_RESET (fits_reset e hg) (op endop :: rest) (by simp) (fun _ => stops_ender _ _ hen.1 _) _
      (tails_stop P_RESET n _ (stops_ender _ _ hen.1 _))
    rw [Args.toks, List.append_assoc]
    refine arg_go l e hg n x ex endop hend acc named endop hen.2 rest ih ?_
    apply Ev.step
    apply Ev.step
    refine Ev.of fun f => ?_
    rw [args]
    have hemp : (acc ++ [x.1]).isEmpty = false := by cases acc <;> rfl
    rw [hemp]
    simp only [Bool.false_eq_true, if_false]
    have : softComma endop (op endop :: rest) = .ok (op endop :: rest) := by
      rcases hend with rfl | rfl <;> rfl
    rw [this]
    simp only [R.bind]
    rw [argsBody.eq_def]
    dsimp only
    dsimp only [op]
    rw [if_pos ⟨rfl, rfl⟩]
  | .cons l e more, hg, hp, ns, nm, ha, endop, hend, acc, named, rest => by
    rw [Args.Grouped] at hg
    rw [Args.Plain] at hp
    rw [Args.act] at ha
    obtain ⟨n, en, ha⟩ := R.bind_ok ha
    obtain ⟨x, ex, ha⟩ := R.bind_ok ha
    obtain ⟨⟨ms, mm⟩, em, ha⟩ := R.bind_ok ha
    cases ha
    have ih := complete e hg.1 hp.1 n en P_RESET (fits_reset e hg.1) (op "," :: (more.toks ++ op endop :: rest)) (by simp)
      (fun _ => stops_ender _ _ (by decide) _) _ (tails_stop P_RESET n _ (stops_ender _ _ (by decide) _))
    have ihm := completeArgs more hg.2 hp.2 ms mm em endop hend (acc ++ [x.1]) (named || x.2) rest
    rw [Args.toks, List.append_assoc, List.append_assoc, List.cons_append]
    refine arg_go l e hg.1 n x ex endop hend acc named "," (by decide) _ ih ?_
    apply Ev.step
    refine ihm.imp fun f ihm => ?_
    rw [args]
    have hemp : (acc ++ [x.1]).isEmpty = false := by cases acc <;> rfl
    rw [hemp]
    simp only [Bool.false_eq_true, if_false]
    have : softComma endop (op "," :: (more.toks ++ op endop :: rest)) = .ok (more.toks ++ op endop :: rest) := rfl
    rw [this]
    simp only [R.bind]
    rw [ihm]
    simp only [List.append_assoc, List.cons_append, List.nil_append, Bool.or_assoc]

end

end Verif.Parse
