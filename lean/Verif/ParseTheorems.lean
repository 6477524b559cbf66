import Verif.ParseProps
/-!
# Expressions: the theorems
-/
namespace Verif.Parse
open Verif

/-- **C69.** An expression that is grouped rightly, followed by a token that ends it, is read, wholly, and as the tree it
stands for - whatever its size and depth; one unit of fuel per nested call, of which there are linearly many.  Partial: what
is called must not be an index or a postfix expression without parentheses (`Sane`, `callee_dropped`); `codeName` is how
the parser names arguments (C70).  Names that begin something else (`fn`, `struct`, …) are excepted. -/
theorem parse_complete_partial (e : Expr) (hg : e.Grouped) (hp : e.Plain) (hs : e.Sane) (n : Node) (hn : e.mean codeName = some n)
    (v : String) (hv : v ∈ [")", "]", ",", ";", ":", "}"]) (rest : List Token) (f : Nat) (hf : 4 * (e.toks ++ op v :: rest).length + 2 ≤ f) :
    expr f P_RESET (e.toks ++ op v :: rest) = .ok (n, op v :: rest) := by
  have ha : e.act = .ok n := by rw [act_mean e hg hs, hn]; rfl
  exact enough (complete e hg hp n ha P_RESET (fits_reset e hg) _ (by simp) (fun _ => stops_ender _ v hv _) _
    (tails_stop P_RESET n _ (stops_ender _ v hv _))) hf

/-- **C69.** Whatever is read is the text of an expression that is grouped rightly, and the tree is the one it stands for. -/
theorem parse_sound_partial (f : Nat) (ts : List Token) (n : Node) (rest : List Token) (h : expr f P_RESET ts = .ok (n, rest)) :
    ∃ e : Expr, e.Grouped ∧ ts = e.toks ++ rest ∧ (e.Sane → e.mean codeName = some n) := by
  obtain ⟨e, h1, h2, h3, _, _⟩ := (sound f).expr _ _ _ _ h
  refine ⟨e, h1, h2, fun hs => ?_⟩
  rw [act_mean e h1 hs] at h3
  cases hm : e.mean codeName with
  | none => rw [hm] at h3; cases h3
  | some m => rw [hm] at h3; cases h3; rfl

/-- **C69.** No text stands for two trees. -/
theorem unambiguous (e e' : Expr) (hg : e.Grouped) (hg' : e'.Grouped) (hp : e.Plain) (hp' : e'.Plain) (hs : e.Sane) (hs' : e'.Sane)
    (ht : e.toks = e'.toks) (n n' : Node) (hn : e.mean codeName = some n) (hn' : e'.mean codeName = some n') : n = n' := by
  have h := parse_complete_partial e hg hp hs n hn ";" (by decide) [] _ (Nat.le_refl _)
  have h' := parse_complete_partial e' hg' hp' hs' n' hn' ";" (by decide) [] _ (Nat.le_refl _)
  rw [ht, h'] at h
  cases h
  rfl

/-- **C69.** Inside an operand: an operator that binds more loosely than the context, or as loosely where operands group to
the left, ends the operand and is left to the context. -/
theorem operand_ends (q f : Nat) (ts : List Token) (n : Node) (o : String) (rest : List Token) (ho : level o ≠ 0)
    (h : expr f q ts = .ok (n, op o :: rest)) : q < level o ∨ (level o = q ∧ right q = false) := by
  obtain ⟨e, _, _, _, _, hst⟩ := (sound f).expr _ _ _ _ h
  unfold stops at hst
  simp only [ne_eq, not_true_eq_false, decide_false, Bool.false_or, Bool.and_eq_true, decide_eq_true_eq, prec_eq] at hst
  have h := hst.2
  rw [if_pos ho, miss_iff] at h
  rcases h with h | ⟨h, h'⟩
  · exact .inl h
  · exact .inr ⟨h, h ▸ h'⟩

/-- **C69**, the defect: when an index or a postfix expression is called, what is called is lost - only the arguments remain, as
those of the operator. -/
theorem callee_dropped (e : Expr) (as bs : Args) (o : String) (hg : o ∈ postfixOps) (n : Node) :
    ((Expr.call (.index e as) bs).act = .ok n → n.kind = "call" ∧ n.value = "[]" ∧ ∃ nm, bs.act = .ok (n.items, nm)) ∧
    ((Expr.call (.post o e) bs).act = .ok n → n.kind = "call" ∧ ∃ nm, bs.act = .ok (n.items, nm)) := by
  constructor
  · intro h
    rw [Expr.act, Expr.act] at h
    obtain ⟨a, ha, h⟩ := R.bind_ok h
    obtain ⟨x, hx, ha⟩ := R.bind_ok ha
    obtain ⟨y, hy, ha⟩ := R.bind_ok ha
    cases ha
    obtain ⟨z, hz, h⟩ := R.bind_ok h
    unfold callExpr at h
    simp [createCall, make, Node.parens, Node.kind, Node.flags, Node.value, Flags.or] at h
    subst h
    exact ⟨rfl, rfl, z.2, hz⟩
  · intro h
    rw [Expr.act, Expr.act] at h
    obtain ⟨a, ha, h⟩ := R.bind_ok h
    obtain ⟨x, hx, ha⟩ := R.bind_ok ha
    cases ha
    obtain ⟨z, hz, h⟩ := R.bind_ok h
    have hv : (if o = "++" ∨ o = "--" then "postfix" ++ o else o) ≠ "" := by
      have : ∀ o ∈ postfixOps, (if o = "++" ∨ o = "--" then "postfix" ++ o else o) ≠ "" := by decide
      exact this o hg
    unfold callExpr at h
    simp only [createCall, make, Node.parens, Node.kind, Node.flags, Node.value, Flags.or, hv, if_false] at h
    simp at h
    subst h
    exact ⟨rfl, z.2, hz⟩

/-! ### names of arguments -/

theorem getAutoName_fuel : ∀ (f g : Nat) (n : Node), depth n ≤ f → depth n ≤ g → getAutoName f n = getAutoName g n := by
  have hd : ∀ k v fl p items, depth (.mk k v fl p items) = 1 + depth.depths items := fun _ _ _ _ _ => by rw [depth]
  have hc : ∀ (items : List Node) (i : Nat) (m : Node), items[i]? = some m → depth m ≤ depth.depths items := by
    intro items
    induction items with
    | nil => intro i m h; cases h
    | cons x xs ih =>
      intro i m h
      rw [depth.depths]
      cases i with
      | zero => cases h; exact Nat.le_max_left _ _
      | succ i => exact Nat.le_trans (ih i m h) (Nat.le_max_right _ _)
  intro f
  induction f with
  | zero => intro g n h; obtain ⟨k, v, fl, p, items⟩ := n; rw [hd] at h; omega
  | succ f ih =>
    intro g n h h'
    cases g with
    | zero => obtain ⟨k, v, fl, p, items⟩ := n; rw [hd] at h'; omega
    | succ g =>
      unfold getAutoName
      split
      · rfl
      · split
        · dsimp only
          cases hi : n.items[if n.kind = "and" ∧ n.items.length - 1 ≠ 0 then if n.kind = "if" then 1 else 0 else 0]? with
          | none => rfl
          | some m =>
            have hm := hc _ _ _ hi
            obtain ⟨k, v, fl, p, items⟩ := n
            rw [hd] at h h'
            simp only [Node.items] at hm
            exact ih g m (by omega) (by omega)
        · rfl

/-- the position the name is taken from is always the first -/
theorem codeName_eq (n : Node) : codeName n = if hasIdentifierChars n.value ∧ n.kind = "call" then some n.value else n.items.head?.bind codeName := by
  obtain ⟨k, v, fl, p, items⟩ := n
  unfold codeName
  rw [show depth (.mk k v fl p items) = depth.depths items + 1 by rw [depth]; omega]
  conv => lhs; unfold getAutoName
  split
  · rfl
  · cases items with
    | nil => rfl
    | cons x xs =>
      have hi : (if (Node.mk k v fl p (x :: xs)).kind = "and" ∧ (Node.mk k v fl p (x :: xs)).items.length - 1 ≠ 0 then
          if (Node.mk k v fl p (x :: xs)).kind = "if" then 1 else 0 else 0) = 0 := by
        split
        · rename_i h; rw [if_neg (by rw [h.1]; decide)]
        · rfl
      dsimp only
      rw [hi]
      have hx : depth x ≤ depth.depths (x :: xs) := by rw [depth.depths]; exact Nat.le_max_left _ _
      simp only [Node.items, List.isEmpty_cons, if_true, List.getElem?_cons_zero, List.head?_cons, Option.bind_some]
      exact getAutoName_fuel _ _ x hx (Nat.le_refl _)

/-- the name is found without passing a conditional or a conjunction -/
inductive Direct : Node → Prop where
  | call (n : Node) (hk : n.kind = "call") (hv : hasIdentifierChars n.value = true) : Direct n
  | first (n m : Node) (ms : List Node) (hk : n.kind ≠ "if" ∧ n.kind ≠ "and") (hi : n.items = m :: ms) (hm : Direct m) : Direct n

theorem depth_items {n m : Node} {ms : List Node} (h : n.items = m :: ms) : depth m < depth n := by
  obtain ⟨k, v, fl, p, items⟩ := n
  simp only [Node.items] at h
  subst h
  have : depth m ≤ depth.depths (m :: ms) := by rw [depth.depths]; exact Nat.le_max_left _ _
  rw [show depth (.mk k v fl p (m :: ms)) = 1 + depth.depths (m :: ms) by rw [depth]]
  omega

theorem depth_pos (n : Node) : 0 < depth n := by
  obtain ⟨k, v, fl, p, items⟩ := n
  rw [depth]; omega

/-- **C70.** An argument without a name gets the name of its expression.  Partial: not for conditionals and conjunctions
(`autoname_if`, `autoname_and`). -/
theorem autoname_partial (n : Node) (h : Direct n) : codeName n = ownName (depth n) n := by
  have key : ∀ f, depth n ≤ f → codeName n = ownName f n := by
    induction h with
    | call n hk hv =>
      intro f hf
      have := depth_pos n
      obtain ⟨g, rfl⟩ : ∃ g, f = g + 1 := ⟨f - 1, by omega⟩
      rw [codeName_eq, if_pos ⟨hv, hk⟩, ownName, if_pos ⟨hk, hv⟩]
    | first n m ms hk hi hm ih =>
      intro f hf
      have := depth_items hi
      obtain ⟨g, rfl⟩ : ∃ g, f = g + 1 := ⟨f - 1, by omega⟩
      rw [codeName_eq, ownName]
      by_cases hc : n.kind = "call" ∧ hasIdentifierChars n.value = true
      · rw [if_pos ⟨hc.2, hc.1⟩, if_pos hc]
      · rw [if_neg (fun h => hc ⟨h.2, h.1⟩), if_neg hc, if_neg hk.1, if_neg hk.2, hi]
        exact ih g (by omega)
  exact key _ (Nat.le_refl _)

/-- **C70**, the defect: of `_ ? NAME : _` the name taken is that of the condition, … -/
theorem autoname_if (c m a : Node) : codeName (createIf c m a) = codeName c := by
  rw [codeName_eq]
  simp [createIf, make, Node.kind, Node.items]

/-- … and of `_ && NAME` that of the first operand. -/
theorem autoname_and (x y : Node) (hx : x.kind ≠ "and") : codeName (flattenIfSame "and" x y) = codeName x := by
  have : ∃ l, flattenIfSame "and" x y = .mk "and" "" {} false (x :: l) := by
    unfold flattenIfSame make
    dsimp only
    rw [if_neg (fun h => hx h.1), if_neg hx]
    split
    · exact ⟨_, rfl⟩
    · exact ⟨_, rfl⟩
  obtain ⟨l, h⟩ := this
  rw [h, codeName_eq]
  simp [Node.kind, Node.items]

/-- **C70.** `:e` is short for `name: e`. -/
theorem autoname_same (e : Expr) (o : Bool) (n : Node) (hn : e.mean codeName = some n) (v : String) (hv : codeName n = some v) :
    (Args.one (.auto o) e).mean codeName = (Args.one (.name v o) e).mean codeName := by
  rw [Args.mean, Args.mean, hn]
  simp [Label.apply, hv]

/-! ### examples -/

/-- the parse, as a decidable question -/
def reads (ts : List Token) (want : Node → Bool) : Bool :=
  match expr (4 * ts.length + 2) P_RESET ts with
  | .ok (n, rest) => rest = [op ";"] && want n
  | _ => false

private def i (v : String) : Token := ⟨"id", v⟩

/-- `a + b * c ;` -/
example : reads [i "a", op "+", i "b", op "*", i "c", op ";"] (fun n => n.value = "+" && n.items.map (·.value) = ["a", "*"]) = true := by decide +kernel
/-- `a - b - c ;` -/
example : reads [i "a", op "-", i "b", op "-", i "c", op ";"] (fun n => n.items.map (·.value) = ["-", "c"]) = true := by decide +kernel
/-- `a = b = c ;` -/
example : reads [i "a", op "=", i "b", op "=", i "c", op ";"] (fun n => n.items.map (·.value) = ["a", "="]) = true := by decide +kernel
/-- `a + b => T * c ;`: a cast takes all of the sum, but nothing after its type -/
example : reads [i "a", op "+", i "b", op "=>", i "T", op "*", i "c", op ";"]
    (fun n => n.value = "*" && n.items.map (·.kind) = ["typecast", "call"]) = true := by decide +kernel
/-- `x.f(:y, z: 1) ;` -/
example : reads [i "x", op ".", i "f", op "(", op ":", i "y", op ",", i "z", op ":", ⟨"int", "1"⟩, op ")", op ";"]
    (fun n => n.value = "f" && n.items.map (·.kind) = ["call", "argid", "argid"] && n.items.map (·.value) = ["x", "y", "z"]) = true := by decide +kernel
/-- `a[0](x) ;`: what is called is lost -/
example : reads [i "a", op "[", ⟨"int", "0"⟩, op "]", op "(", i "x", op ")", op ";"]
    (fun n => n.value = "[]" && n.items.map (·.value) = ["x"]) = true := by decide +kernel
/-- `f(:c ? a : b) ;`: named after the condition -/
example : reads [i "f", op "(", op ":", i "c", op "?", i "a", op ":", i "b", op ")", op ";"] (fun n => n.items.map (·.value) = ["c"]) = true := by decide +kernel

private def sample : Expr := .bin "+" (.id "a") (.bin "*" (.call (.dot (.id "b") "f") (.cons (.name "x" false) (.lit "int" "1") (.one (.auto true) (.id "y")))) (.pre "-" (.id "c")))

/-- the hypotheses of `parse_complete_partial` hold of `a + b.f(x: 1, ?:y) * -c` -/
example : sample.Grouped ∧ sample.Plain ∧ sample.Sane ∧ (sample.mean codeName).isSome = true := by
  refine ⟨?_, ?_, ?_, ?_⟩
  · simp [sample, Expr.Grouped, Args.Grouped, level, right, Expr.edge, Expr.lev, prefixOps]
  · simp [sample, Expr.Plain, Args.Plain, reserved]
  · simp [sample, Expr.Sane, Args.Sane]
  · decide +kernel

/-- and those of `autoname_partial`, of `a.b + c` -/
example : Direct (createCall "+" { operator := true } [createCall "b" { dot := true } [createCall "a" {}], createCall "c" {}]) :=
  .first _ _ _ (by decide) rfl (.call _ rfl (by decide))

end Verif.Parse
