import Verif.ParseTerm
/-!
# What the parser reads is what the text means
-/
namespace Verif.Parse
open Verif

/-- how the parser names an argument after its expression -/
def codeName (n : Node) : Option String := getAutoName (depth n) n

/-! ### the nodes of expressions -/

structure Facts (e : Expr) (n : Node) : Prop where
  digits : n.kind = "int" ∨ n.kind = "real" → n.value ≠ ""
  dot : n.kind = "call" → n.flags.dot = true → n.items ≠ []
  name : ∀ v, e.name? = some v ↔ n.kind = "call" ∧ n.flags = {} ∧ n.items = [] ∧ n.value = v

theorem ofList_ne (c : Char) (l : List Char) : String.ofList (c :: l) ≠ "" := by
  intro h
  have := congrArg String.toList h
  simp at this

theorem append_ne {a b : String} (h : a ≠ "") : a ++ b ≠ "" := by
  intro hh
  have := congrArg String.toList hh
  rw [String.toList_append] at this
  have h1 := (List.append_eq_nil_iff.1 (this.trans (by simp))).1
  exact h (by rw [← String.ofList_toList (s := a), h1])

theorem signed_ne (o v : String) (ho : o = "+" ∨ o = "-") : signed o v ≠ "" := by
  unfold signed
  split
  · apply append_ne; split <;> decide
  · apply append_ne; split <;> decide
  · apply append_ne; rcases ho with rfl | rfl <;> decide

theorem facts_other {e : Expr} {n : Node} (hk : n.kind ≠ "int" ∧ n.kind ≠ "real" ∧ n.kind ≠ "call") (hn : e.name? = none) : Facts e n where
  digits h := by rcases h with h | h; exact absurd h hk.1; exact absurd h hk.2.1
  dot h := absurd h hk.2.2
  name v := by
    rw [hn]
    exact ⟨fun h => (by cases h), fun h => absurd h.1 hk.2.2⟩

theorem facts_call {e : Expr} {n : Node} (hk : n.kind = "call") (hi : n.items ≠ [] ∨ (n.flags ≠ {} ∧ n.flags.dot = false)) (hn : e.name? = none) : Facts e n where
  digits h := by rw [hk] at h; exact absurd h (by decide)
  dot _ hd := by
    rcases hi with h | h
    · exact h
    · rw [h.2] at hd; cases hd
  name v := by
    rw [hn]
    refine ⟨fun h => (by cases h), fun h => ?_⟩
    rcases hi with h' | h'
    · exact absurd h.2.2.1 h'
    · exact absurd h.2.1 h'.1

theorem facts (nm : Node → Option String) : ∀ (e : Expr), e.Grouped → e.Sane → ∀ n, e.mean nm = some n → Facts e n
  | .lit k v, hg, hs, n, h => by
    rw [Expr.mean] at h
    cases h
    rw [Expr.Sane] at hs
    rw [Expr.Grouped] at hg
    have hk : k ≠ "call" := fun h => by rw [h] at hg; exact absurd hg (by decide)
    exact ⟨fun _ => hs, fun h => absurd h hk, fun w => ⟨fun h => (by cases h), fun h => absurd h.1 hk⟩⟩
  | .id v, hg, hs, n, h => by
    rw [Expr.mean] at h
    cases h
    split
    · rename_i hv
      exact facts_other ⟨by simp [Node.kind], by simp [Node.kind], by simp [Node.kind]⟩ (by rw [Expr.name?, if_pos hv])
    · rename_i hv
      refine ⟨fun h => ?_, fun _ h => (by cases h), fun w => ?_⟩
      · simp [Node.kind] at h
      rw [Expr.name?, if_neg hv]
      exact ⟨fun h => (by cases h; exact ⟨rfl, rfl, rfl, rfl⟩), fun h => (by rw [← h.2.2.2]; rfl)⟩
  | .definit, _, _, n, h => by
    rw [Expr.mean] at h
    cases h
    exact facts_other ⟨by simp [Node.kind], by simp [Node.kind], by simp [Node.kind]⟩ rfl
  | .paren e, hg, hs, n, h => by
    rw [Expr.mean] at h
    rw [Expr.Sane] at hs
    rw [Expr.Grouped] at hg
    obtain ⟨m, hm, rfl⟩ := Option.map_eq_some_iff.1 h
    have ih := facts nm e hg hs m hm
    exact ⟨ih.digits, ih.dot, fun v => by rw [Expr.name?]; exact ih.name v⟩
  | .arr as, _, _, n, h => by
    rw [Expr.mean] at h
    obtain ⟨m, hm, rfl⟩ := Option.map_eq_some_iff.1 h
    exact facts_other ⟨by simp [Node.kind], by simp [Node.kind], by simp [Node.kind]⟩ rfl
  | .pre o e, hg, hs, n, h => by
    rw [Expr.mean] at h
    obtain ⟨m, hm, rfl⟩ := Option.map_eq_some_iff.1 h
    split
    · rename_i hc
      have hk : m.kind ≠ "call" := by rcases hc.2 with h | h <;> rw [h] <;> decide
      exact ⟨fun _ => signed_ne _ _ hc.1, fun h => absurd h hk, fun w => ⟨fun h => (by cases h), fun h => absurd h.1 hk⟩⟩
    · split
      · exact facts_other ⟨by simp [Node.kind], by simp [Node.kind], by simp [Node.kind]⟩ rfl
      · exact facts_call rfl (.inl (by simp [Node.items])) rfl
  | .bin o l r, _, _, n, h => by
    rw [Expr.mean] at h
    obtain ⟨a, _, h⟩ := Option.bind_eq_some_iff.1 h
    obtain ⟨b, _, h⟩ := Option.bind_eq_some_iff.1 h
    split at h
    · cases h
      exact facts_other ⟨by simp [Node.kind, logical], by simp [Node.kind, logical], by simp [Node.kind, logical]⟩ rfl
    split at h
    · cases h
      exact facts_other ⟨by simp [Node.kind, logical], by simp [Node.kind, logical], by simp [Node.kind, logical]⟩ rfl
    split at h
    · unfold withFirst at h
      split at h
      · cases h
        exact facts_call rfl (.inl (by simp only [Node.items]; split <;> simp)) rfl
      · cases h
    split at h
    · unfold withLast at h
      split at h
      · cases h
        exact facts_call rfl (.inl (by simp [Node.items])) rfl
      · cases h
    split at h
    · obtain ⟨v, _, rfl⟩ := Option.map_eq_some_iff.1 h
      exact facts_other ⟨by simp [Node.kind], by simp [Node.kind], by simp [Node.kind]⟩ rfl
    · cases h
      exact facts_call rfl (.inl (by simp [Node.items])) rfl
  | .cond c m a, _, _, n, h => by
    rw [Expr.mean] at h
    obtain ⟨_, _, h⟩ := Option.bind_eq_some_iff.1 h
    obtain ⟨_, _, h⟩ := Option.bind_eq_some_iff.1 h
    obtain ⟨_, _, rfl⟩ := Option.map_eq_some_iff.1 h
    exact facts_other ⟨by simp [Node.kind], by simp [Node.kind], by simp [Node.kind]⟩ rfl
  | .cast o l k r, _, _, n, h => by
    rw [Expr.mean] at h
    obtain ⟨_, _, h⟩ := Option.bind_eq_some_iff.1 h
    obtain ⟨_, _, rfl⟩ := Option.map_eq_some_iff.1 h
    exact facts_other ⟨by simp only [Node.kind]; split <;> decide, by simp only [Node.kind]; split <;> decide, by simp only [Node.kind]; split <;> decide⟩ rfl
  | .dot e v, _, _, n, h => by
    rw [Expr.mean] at h
    obtain ⟨_, _, rfl⟩ := Option.map_eq_some_iff.1 h
    exact facts_call rfl (.inl (by simp [Node.items])) rfl
  | .index e as, _, _, n, h => by
    rw [Expr.mean] at h
    obtain ⟨_, _, h⟩ := Option.bind_eq_some_iff.1 h
    obtain ⟨_, _, rfl⟩ := Option.map_eq_some_iff.1 h
    exact facts_call rfl (.inl (by simp [Node.items])) rfl
  | .post o e, _, _, n, h => by
    rw [Expr.mean] at h
    obtain ⟨_, _, rfl⟩ := Option.map_eq_some_iff.1 h
    exact facts_call rfl (.inl (by simp [Node.items])) rfl
  | .call e as, _, _, n, h => by
    rw [Expr.mean] at h
    obtain ⟨m, hm, h⟩ := Option.bind_eq_some_iff.1 h
    obtain ⟨x, _, rfl⟩ := Option.map_eq_some_iff.1 h
    obtain ⟨ns, nn⟩ := x
    dsimp only [Expr.called]
    split
    · split
      · exact facts_other ⟨by simp [Node.kind], by simp [Node.kind], by simp [Node.kind]⟩ rfl
      · exact facts_call rfl (.inr (by simp [Node.flags])) rfl
    · rw [Expr.mean] at hm
      obtain ⟨_, _, rfl⟩ := Option.map_eq_some_iff.1 hm
      exact facts_call rfl (.inl (by simp [Node.items])) rfl
    · exact facts_other ⟨by simp [Node.kind], by simp [Node.kind], by simp [Node.kind]⟩ rfl

/-! ### the actions of the parser are the meaning -/

theorem R.of_bind {α β : Type} (o : Option α) (f : α → R β) (g : α → Option β) (h : ∀ a, o = some a → f a = R.of (g a)) : (R.of o).bind f = R.of (o.bind g) := by
  cases o with
  | none => rfl
  | some a => exact h a rfl

theorem R.of_map {α β : Type} (o : Option α) (f : α → R β) (g : α → β) (h : ∀ a, o = some a → f a = .ok (g a)) : (R.of o).bind f = R.of (o.map g) := by
  cases o with
  | none => rfl
  | some a => exact h a rfl

theorem act_prefix (o : String) (n : Node) (hd : n.kind = "int" ∨ n.kind = "real" → n.value ≠ "") : createPrefix o n = .ok
    (if (o = "+" ∨ o = "-") ∧ (n.kind = "int" ∨ n.kind = "real") then .mk n.kind (signed o n.value) n.flags n.parens n.items
      else if o = "!" then .mk "not" "" {} false [n]
      else .mk "call" o { operator := true } false [n]) := by
  unfold createPrefix
  by_cases hc : (o = "+" ∨ o = "-") ∧ (n.kind = "int" ∨ n.kind = "real")
  · rw [if_pos hc, if_pos hc]
    unfold signed
    cases hv : n.value.toList with
    | nil =>
      exfalso
      apply hd hc.2
      rw [← String.ofList_toList (s := n.value), hv]
    | cons c rest =>
      dsimp only
      by_cases hp : c = '+'
      · subst hp
        rw [if_pos (.inl rfl)]
        rcases hc.1 with rfl | rfl
        · simp only [show (['+'] = "+".toList) = True by simp, if_true, String.ofList_cons]
          rfl
        · simp only [show (['+'] = "-".toList) = False by simp, if_false, if_true, String.ofList_cons]
          rfl
      · by_cases hm : c = '-'
        · subst hm
          rw [if_pos (.inr rfl)]
          rcases hc.1 with rfl | rfl
          · simp only [show (['-'] = "+".toList) = False by simp, if_false, String.ofList_cons]
            rfl
          · simp only [show (['-'] = "-".toList) = True by simp, if_true, String.ofList_cons]
            rfl
        · rw [if_neg (by simp [hp, hm])]
          congr 2
          split
          · rename_i h; cases h; exact absurd rfl hp
          · rename_i h; cases h; exact absurd rfl hm
          · rfl
  · rw [if_neg hc, if_neg hc]
    split <;> rfl

theorem act_bin (o : String) (l r : Expr) (a b : Node) (fa : Facts l a) (fb : Facts r b) (h2 : o ≠ "->") (h3 : o ≠ "=>") : combine o a b = R.of
    (if o = "||" then some (logical "or" a b)
      else if o = "&&" then some (logical "and" a b)
      else if o = "|>" then withFirst a b
      else if o = "<|" then withLast b a
      else if o = ":=" then l.name?.map fun v => .mk "let" v {} false [emptyNode, b]
      else some (.mk "call" o { operator := true } false [a, b])) := by
  have flat : ∀ k, R.ok (flattenIfSame k a b) = R.of (some (logical k a b)) := by
    intro k
    unfold flattenIfSame logical make
    simp only [R.of]
    by_cases h1 : a.kind = k <;> by_cases h2 : b.kind = k <;> simp [h1, h2]
  unfold combine
  split
  · exact flat _
  split
  · exact flat _
  split
  · obtain ⟨k, v, f, p, items⟩ := b
    by_cases hk : k = "call"
    · subst hk
      have hd := fb.dot rfl
      simp only [Node.flags, Node.items] at hd
      by_cases hf : f.dot = true
      · have := hd hf
        cases items with
        | nil => exact absurd rfl this
        | cons i is => simp [pipelineRight, withFirst, Node.kind, Node.flags, Node.items, Node.value, Node.parens, R.of, hf]
      · simp [pipelineRight, withFirst, Node.kind, Node.flags, Node.items, Node.value, Node.parens, R.of, hf]
    · have : withFirst a (.mk k v f p items) = none := by
        unfold withFirst
        split
        · rename_i h; cases h; exact absurd rfl hk
        · rfl
      rw [this]
      simp [pipelineRight, Node.kind, hk, R.of]
  split
  · obtain ⟨k, v, f, p, items⟩ := a
    by_cases hk : k = "call"
    · subst hk
      simp [pipelineLeft, withLast, Node.kind, Node.flags, Node.items, Node.value, Node.parens, R.of, Flags.or]
    · have : withLast b (.mk k v f p items) = none := by
        unfold withLast
        split
        · rename_i h; cases h; exact absurd rfl hk
        · rfl
      rw [this]
      simp [pipelineLeft, Node.kind, hk, R.of]
  split
  · unfold letShorthand
    cases hn : l.name? with
    | none =>
      have : ¬ (a.kind = "call" ∧ a.flags = {} ∧ a.items = []) := fun h => by
        have := (fa.name a.value).2 ⟨h.1, h.2.1, h.2.2, rfl⟩
        rw [hn] at this; cases this
      rw [if_pos]
      · rfl
      · apply Decidable.byContradiction
        intro h
        simp only [not_or, ne_eq, Decidable.not_not] at h
        exact this ⟨h.1, h.2.1, by simpa using h.2.2⟩
    | some v =>
      obtain ⟨h1, h2, h3, h4⟩ := (fa.name v).1 hn
      rw [if_neg (by simp [h1, h2, h3]), h4]
      rfl
  · rfl

theorem act_label (l : Label) (n : Node) : l.act n = R.of (l.apply codeName n) := by
  cases l with
  | none => rfl
  | name v o => rfl
  | auto o =>
    show (R.of (codeName n)).bind _ = R.of ((codeName n).map _)
    exact R.of_map _ _ _ fun _ _ => rfl

/-- what is called by name, and what is not -/
theorem act_call (e : Expr) (as : Args) (hg : e.Grouped) (he : e.edge = 0) (hs : (Expr.call e as).Sane) (n : Node) (hn : e.mean codeName = some n)
    (ns : List Node) (nm : Bool) : callExpr n ns { named := nm } = .ok (e.called n ns nm) := by
  unfold Expr.called
  rw [Expr.Sane] at hs
  cases e with
  | id v =>
    rw [Expr.Grouped] at hg
    rw [Expr.mean] at hn
    cases hn
    dsimp only
    split
    · rfl
    · unfold callExpr
      simp [Node.parens, Node.kind, Node.flags, Node.value, Flags.or, hg.2, createCall, make]
  | dot e v =>
    rw [Expr.mean] at hn
    obtain ⟨m, _, rfl⟩ := Option.map_eq_some_iff.1 hn
    rw [Expr.Sane] at hs
    unfold callExpr
    simp [Node.parens, Node.kind, Node.flags, Node.value, Node.items, Flags.or, hs.1.2, createCall, make]
  | lit k v =>
    rw [Expr.Grouped] at hg
    rw [Expr.mean] at hn
    cases hn
    have : k ≠ "call" := fun h => by rw [h] at hg; exact absurd hg (by decide)
    unfold callExpr
    simp [Node.parens, Node.kind, this, make]
  | definit =>
    rw [Expr.mean] at hn
    cases hn
    rfl
  | paren e =>
    rw [Expr.mean] at hn
    obtain ⟨m, _, rfl⟩ := Option.map_eq_some_iff.1 hn
    rfl
  | arr as =>
    rw [Expr.mean] at hn
    obtain ⟨m, _, rfl⟩ := Option.map_eq_some_iff.1 hn
    rfl
  | pre o e => simp [Expr.edge] at he
  | bin o l r => rw [Expr.Grouped] at hg; exact absurd he hg.1
  | cond c m a => simp [Expr.edge] at he
  | cast o l k r => simp [Expr.edge] at he
  | index x xs => exact absurd rfl (hs.2.2.1 x xs)
  | post o x => exact absurd rfl (hs.2.2.2 o x)
  | call x xs =>
    rw [Expr.mean] at hn
    obtain ⟨m, _, hn⟩ := Option.bind_eq_some_iff.1 hn
    obtain ⟨y, _, hn⟩ := Option.map_eq_some_iff.1 hn
    dsimp only [Expr.called] at hn
    split at hn
    · split at hn
      · subst hn; rfl
      · subst hn
        unfold callExpr
        simp [Node.parens, Node.kind, Node.flags, Flags.or, make]
    · subst hn
      unfold callExpr
      simp [Node.parens, Node.kind, Node.flags, Flags.or, make]
    · subst hn; rfl

mutual
theorem act_mean : ∀ (e : Expr), e.Grouped → e.Sane → e.act = R.of (e.mean codeName)
  | .lit k v, _, _ => by rw [Expr.act, Expr.mean]; rfl
  | .id v, hg, _ => by
    rw [Expr.act, Expr.mean]
    rw [Expr.Grouped] at hg
    unfold createRead
    split
    · rfl
    · rw [if_neg hg.2]; rfl
  | .definit, _, _ => by rw [Expr.act, Expr.mean]; rfl
  | .paren e, hg, hs => by
    rw [Expr.Grouped] at hg
    rw [Expr.Sane] at hs
    rw [Expr.act, Expr.mean, act_mean e hg hs]
    exact R.of_map _ _ _ fun n _ => by cases n; rfl
  | .arr as, hg, hs => by
    rw [Expr.Grouped] at hg
    rw [Expr.Sane] at hs
    rw [Expr.act, Expr.mean, act_means as hg hs]
    exact R.of_map _ _ _ fun n _ => rfl
  | .pre o e, hg, hs => by
    have hg' := hg
    rw [Expr.Grouped] at hg
    rw [Expr.Sane] at hs
    rw [Expr.act, Expr.mean, act_mean e hg.2.2 hs]
    exact R.of_map _ _ _ fun n hn => act_prefix o n (facts _ e hg.2.2 hs n hn).digits
  | .bin o l r, hg, hs => by
    rw [Expr.Grouped] at hg
    rw [Expr.Sane] at hs
    rw [Expr.act, Expr.mean, act_mean l hg.2.2.2.2.1 hs.1, act_mean r hg.2.2.2.2.2.1 hs.2]
    exact R.of_bind _ _ _ fun a ha => R.of_bind _ _ _ fun b hb =>
      act_bin o l r a b (facts _ l hg.2.2.2.2.1 hs.1 a ha) (facts _ r hg.2.2.2.2.2.1 hs.2 b hb) hg.2.2.1 hg.2.2.2.1
  | .cond c m a, hg, hs => by
    rw [Expr.Grouped] at hg
    rw [Expr.Sane] at hs
    rw [Expr.act, Expr.mean, act_mean c hg.1 hs.1, act_mean m hg.2.1 hs.2.1, act_mean a hg.2.2.1 hs.2.2]
    exact R.of_bind _ _ _ fun _ _ => R.of_bind _ _ _ fun _ _ => R.of_map _ _ _ fun _ _ => rfl
  | .cast o l k r, hg, hs => by
    rw [Expr.Grouped] at hg
    rw [Expr.Sane] at hs
    rw [Expr.act, Expr.mean, act_mean l hg.2.1 hs.1, act_mean r hg.2.2.1 hs.2]
    refine R.of_bind _ _ _ fun a _ => R.of_map _ _ _ fun b _ => ?_
    rcases hg.1 with rfl | rfl <;> cases k <;> rfl
  | .dot e v, hg, hs => by
    rw [Expr.Grouped] at hg
    rw [Expr.Sane] at hs
    rw [Expr.act, Expr.mean, act_mean e hg.1 hs.1]
    exact R.of_map _ _ _ fun n _ => rfl
  | .call e as, hg, hs => by
    rw [Expr.Grouped] at hg
    have hs' := hs
    rw [Expr.Sane] at hs
    rw [Expr.act, Expr.mean, act_mean e hg.1 hs.1, act_means as hg.2.2 hs.2.1]
    exact R.of_bind _ _ _ fun n hn => R.of_map _ _ _ fun x _ => act_call e as hg.1 hg.2.1 hs' n hn x.1 x.2
  | .index e as, hg, hs => by
    rw [Expr.Grouped] at hg
    rw [Expr.Sane] at hs
    rw [Expr.act, Expr.mean, act_mean e hg.1 hs.1, act_means as hg.2.2 hs.2]
    exact R.of_bind _ _ _ fun n _ => R.of_map _ _ _ fun x _ => rfl
  | .post o e, hg, hs => by
    rw [Expr.Grouped] at hg
    rw [Expr.Sane] at hs
    rw [Expr.act, Expr.mean, act_mean e hg.2.1 hs]
    refine R.of_map _ _ _ fun n _ => ?_
    have : ∀ o ∈ postfixOps, (if o = "++" ∨ o = "--" then "postfix" ++ o else o) = (if o = "++" then "postfix++" else if o = "--" then "postfix--" else o) := by
      decide
    rw [this o hg.1]; rfl
theorem act_means : ∀ (as : Args), as.Grouped → as.Sane → as.act = R.of (as.mean codeName)
  | .nil, _, _ => by rw [Args.act, Args.mean]; rfl
  | .one l e, hg, hs => by
    rw [Args.Grouped] at hg
    rw [Args.Sane] at hs
    rw [Args.act, Args.mean, act_mean e hg hs]
    exact R.of_bind _ _ _ fun n _ => by rw [act_label]; exact R.of_map _ _ _ fun x _ => rfl
  | .cons l e more, hg, hs => by
    rw [Args.Grouped] at hg
    rw [Args.Sane] at hs
    rw [Args.act, Args.mean, act_mean e hg.1 hs.1, act_means more hg.2 hs.2]
    exact R.of_bind _ _ _ fun n _ => by
      rw [act_label]
      exact R.of_bind _ _ _ fun x _ => R.of_map _ _ _ fun y _ => rfl
end

/-! ### more fuel changes nothing -/

theorem bind_more {α β : Type} {x x' : R α} {g g' : α → R β} (h : x.bind g ≠ .fuel) (hx : x ≠ .fuel → x' = x) (hg : ∀ a, g a ≠ .fuel → g' a = g a) :
    x'.bind g' = x.bind g := by
  cases x with
  | ok a => rw [hx (by intro h; cases h)]; exact hg a h
  | fail => rw [hx (by intro h; cases h)]; rfl
  | fuel => exact absurd rfl h

/-- whatever ends with so much fuel ends the same way with more -/
structure More (f : Nat) : Prop where
  expr : ∀ q ts, Parse.expr f q ts ≠ .fuel → Parse.expr (f + 1) q ts = Parse.expr f q ts
  tails : ∀ q n ts, Parse.tails f q n ts ≠ .fuel → Parse.tails (f + 1) q n ts = Parse.tails f q n ts
  head : ∀ ts, Parse.head f ts ≠ .fuel → Parse.head (f + 1) ts = Parse.head f ts
  tail : ∀ q n ts, Parse.tail f q n ts ≠ .fuel → Parse.tail (f + 1) q n ts = Parse.tail f q n ts
  ann : ∀ ts, typeAnnot f ts ≠ .fuel → typeAnnot (f + 1) ts = typeAnnot f ts
  body : ∀ endop acc named ts, argsBody f endop acc named ts ≠ .fuel → argsBody (f + 1) endop acc named ts = argsBody f endop acc named ts
  args : ∀ endop acc named ts, Parse.args f endop acc named ts ≠ .fuel → Parse.args (f + 1) endop acc named ts = Parse.args f endop acc named ts

theorem more (f : Nat) : More f := by
  induction f with
  | zero =>
    refine ⟨fun _ _ h => ?_, fun _ _ _ h => ?_, fun _ h => ?_, fun _ _ _ h => ?_, fun _ h => ?_, fun _ _ _ _ h => ?_, fun _ _ _ _ h => ?_⟩
    · rw [Parse.expr] at h; exact absurd rfl h
    · rw [Parse.tails] at h; exact absurd rfl h
    · rw [Parse.head] at h; exact absurd rfl h
    · rw [Parse.tail] at h; exact absurd rfl h
    · rw [Parse.typeAnnot] at h; exact absurd rfl h
    · rw [Parse.argsBody] at h; exact absurd rfl h
    · rw [Parse.args] at h; exact absurd rfl h
  | succ f ih =>
    refine ⟨fun q ts h => ?_, fun q n ts h => ?_, fun ts h => ?_, fun q n ts h => ?_, fun ts h => ?_, fun endop acc named ts h => ?_,
      fun endop acc named ts h => ?_⟩
    · rw [Parse.expr] at h ⊢
      rw [Parse.expr]
      exact bind_more h (ih.head ts) fun a ha => ih.tails _ _ _ ha
    · rw [Parse.tails] at h ⊢
      rw [Parse.tails]
      refine bind_more h (ih.tail q n ts) fun a ha => ?_
      cases a with
      | none => rfl
      | some x => exact ih.tails _ _ _ ha
    · cases ts with
      | nil => rw [head.eq_def, head.eq_def]
      | cons t ts =>
        rw [head.eq_def] at h ⊢
        rw [head.eq_def (f + 1)]
        dsimp only at h ⊢
        split
        · rfl
        split
        · rfl
        split
        · rename_i h1 h2 h3
          rw [if_neg h1, if_neg h2, if_pos h3] at h
          split
          · rename_i h4
            rw [if_pos h4] at h
            exact bind_more h (ih.expr _ _) fun _ _ => rfl
          rename_i h4
          rw [if_neg h4] at h
          split
          · rename_i h5
            rw [if_pos h5] at h
            exact bind_more h (ih.args _ _ _ _) fun _ _ => rfl
          rename_i h5
          rw [if_neg h5] at h
          split
          · rfl
          rename_i h6
          rw [if_neg h6] at h
          split
          · rfl
          rename_i h7
          rw [if_neg h7] at h
          split
          · rename_i h8
            rw [if_pos h8] at h
            exact bind_more h (ih.expr _ _) fun _ _ => rfl
          · rfl
        · rfl
    · cases ts with
      | nil => rw [tail.eq_def, tail.eq_def]
      | cons t ts =>
        rw [tail.eq_def] at h ⊢
        rw [tail.eq_def (f + 1)]
        dsimp only at h ⊢
        by_cases h1 : ¬ t.kind = "op"
        · rw [if_neg h1, if_neg h1]
        rw [if_pos (Decidable.not_not.1 h1)] at h
        rw [if_pos (Decidable.not_not.1 h1), if_pos (Decidable.not_not.1 h1)]
        by_cases h2 : t.value = ";"
        · rw [if_pos h2, if_pos h2]
        rw [if_neg h2] at h
        rw [if_neg h2, if_neg h2]
        by_cases h3 : t.value = "."
        · rw [if_pos h3, if_pos h3]
        rw [if_neg h3] at h
        rw [if_neg h3, if_neg h3]
        by_cases h4 : t.value = "("
        · rw [if_pos h4] at h
          rw [if_pos h4, if_pos h4]
          exact bind_more h (ih.args _ _ _ _) fun _ _ => rfl
        rw [if_neg h4] at h
        rw [if_neg h4, if_neg h4]
        by_cases h5 : t.value = "["
        · rw [if_pos h5] at h
          rw [if_pos h5, if_pos h5]
          exact bind_more h (ih.args _ _ _ _) fun _ _ => rfl
        rw [if_neg h5] at h
        rw [if_neg h5, if_neg h5]
        by_cases h6 : prec t.value ≠ 0
        · rw [if_pos h6] at h
          rw [if_pos h6, if_pos h6]
          by_cases h7 : miss (prec t.value) q = true
          · rw [if_pos h7, if_pos h7]
          rw [if_neg h7] at h
          rw [if_neg h7, if_neg h7]
          by_cases h8 : t.value = "?"
          · rw [if_pos h8] at h
            rw [if_pos h8, if_pos h8]
            exact bind_more h (ih.expr _ _) fun _ h => bind_more h (fun _ => rfl) fun _ h => bind_more h (ih.expr _ _) fun _ _ => rfl
          rw [if_neg h8] at h
          rw [if_neg h8, if_neg h8]
          by_cases h9 : t.value = "->" ∨ t.value = "=>"
          · rw [if_pos h9] at h
            rw [if_pos h9, if_pos h9]
            exact bind_more h (ih.ann _) fun _ _ => rfl
          · rw [if_neg h9] at h
            rw [if_neg h9, if_neg h9]
            exact bind_more h (ih.expr _ _) fun _ _ => rfl
        · rw [if_neg h6, if_neg h6]
    · cases ts with
      | nil => rw [typeAnnot.eq_def, typeAnnot.eq_def]
      | cons t ts =>
        rw [typeAnnot.eq_def] at h ⊢
        rw [typeAnnot.eq_def (f + 1)]
        dsimp only at h ⊢
        split
        · rename_i h1
          rw [if_pos h1] at h
          cases ts with
          | nil => rfl
          | cons t1 ts =>
            dsimp only at h ⊢
            split
            · rename_i h2
              rw [if_pos h2] at h
              exact bind_more h (ih.expr _ _) fun _ _ => rfl
            · rename_i h2
              rw [if_neg h2] at h
              exact bind_more h (ih.expr _ _) fun _ _ => rfl
        · rename_i h1
          rw [if_neg h1] at h
          exact ih.expr _ _ h
    · cases ts with
      | nil => rw [argsBody.eq_def, argsBody.eq_def]
      | cons t ts =>
        rw [argsBody.eq_def] at h ⊢
        rw [argsBody.eq_def (f + 1)]
        dsimp only at h ⊢
        split
        · rfl
        · rename_i h1
          rw [if_neg h1] at h
          exact bind_more h (ih.expr _ _) fun _ h => bind_more h (fun _ => rfl) fun _ h => ih.args _ _ _ _ h
    · rw [Parse.args] at h ⊢
      rw [Parse.args]
      exact bind_more h (fun _ => rfl) fun _ h => ih.body _ _ _ _ h

theorem enough {q : Nat} {ts : List Token} {X : R (Node × List Token)} (h : Ev fun f => expr f q ts = X) {f : Nat} (hf : 4 * ts.length + 2 ≤ f) :
    expr f q ts = X := by
  obtain ⟨N, h⟩ := h
  have : ∀ k, expr (f + k) q ts = expr f q ts := by
    intro k
    induction k with
    | zero => rfl
    | succ k ih =>
      rw [← Nat.add_assoc, (more (f + k)).expr q ts (terminates q ts (f + k) (by omega)), ih]
  rw [← this N]
  exact h (f + N) (by omega)

end Verif.Parse
