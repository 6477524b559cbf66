import Verif.ParseSound
/-!
# The parser always ends
-/
namespace Verif.Parse
open Verif

theorem R.bind_fuel {α β : Type} {x : R α} {g : α → R β} (hx : x ≠ .fuel) (hg : ∀ a, x = .ok a → g a ≠ .fuel) : x.bind g ≠ .fuel := by
  cases x with
  | ok a => exact hg a rfl
  | fail => intro h; cases h
  | fuel => exact absurd rfl hx

theorem ok_ne_fuel {α : Type} (a : α) : (R.ok a) ≠ .fuel := by intro h; cases h
theorem fail_ne_fuel {α : Type} : (R.fail : R α) ≠ .fuel := by intro h; cases h

/-- every part of the parser consumes tokens -/
structure Shrinks (f : Nat) : Prop where
  expr : ∀ q ts n rest, Parse.expr f q ts = .ok (n, rest) → rest.length < ts.length
  tails : ∀ q n ts n' rest, Parse.tails f q n ts = .ok (n', rest) → rest.length ≤ ts.length
  head : ∀ ts n rest, Parse.head f ts = .ok (n, rest) → rest.length < ts.length
  tail : ∀ q n ts n' rest, Parse.tail f q n ts = .ok (some (n', rest)) → rest.length < ts.length
  ann : ∀ ts n rest, typeAnnot f ts = .ok (n, rest) → rest.length < ts.length
  body : ∀ endop acc named ts ns nm rest, argsBody f endop acc named ts = .ok (ns, nm, rest) → rest.length < ts.length
  args : ∀ endop acc named ts ns nm rest, Parse.args f endop acc named ts = .ok (ns, nm, rest) → rest.length < ts.length

theorem shrinks (f : Nat) : Shrinks f := by
  have hx : ∀ q ts n rest, Parse.expr f q ts = .ok (n, rest) → rest.length < ts.length := by
    intro q ts n rest h
    obtain ⟨e, g1, g2, _⟩ := (sound f).expr q ts n rest h
    have : e.toks.length ≠ 0 := by simpa using toks_ne g1
    have : ts.length = e.toks.length + rest.length := by rw [g2, List.length_append]
    omega
  refine ⟨hx, ?_, ?_, ?_, ?_, ?_, ?_⟩
  · intro q n ts n' rest h
    -- the tails consume what they read: by induction on fuel
    have tl : ∀ f q n ts n' rest, Parse.tail f q n ts = .ok (some (n', rest)) → rest.length < ts.length := tail_len
    clear hx
    induction f generalizing n ts with
    | zero => rw [Parse.tails] at h; cases h
    | succ f ih =>
      rw [Parse.tails] at h
      obtain ⟨o, ho, h⟩ := R.bind_ok h
      cases o with
      | none => cases h; exact Nat.le_refl _
      | some x =>
        have h1 := tl _ _ _ _ _ _ ho
        have h2 := ih x.1 x.2 h
        omega
  · intro ts n rest h
    obtain ⟨e, g1, g2⟩ := (sound f).head 0 ts n rest h
    have : e.toks.length ≠ 0 := by simpa using toks_ne g1.grouped
    rw [g2, List.length_append]; omega
  · exact fun q n ts n' rest h => tail_len f q n ts n' rest h
  · intro ts n rest h
    obtain ⟨k, r, b, g1, _, _, _, _, _, g2, _⟩ := (sound f).ann ts n rest h
    have : r.toks.length ≠ 0 := by simpa using toks_ne g1
    rw [g2, List.length_append, List.length_append]; omega
  · intro endop acc named ts ns nm rest h
    obtain ⟨as, ms, mm, _, _, _, _, g⟩ := (sound f).body _ _ _ _ _ _ _ h
    rw [g, List.length_append, List.length_cons]; omega
  · intro endop acc named ts ns nm rest h
    exact args_len f endop acc named ts ns nm rest h
where
  args_len (f : Nat) (endop : String) (acc : List Node) (named : Bool) (ts : List Token) (ns : List Node) (nm : Bool) (rest : List Token)
      (h : Parse.args f endop acc named ts = .ok (ns, nm, rest)) : rest.length < ts.length := by
    by_cases ha : acc = []
    · subst ha
      obtain ⟨as, mm, _, _, _, g⟩ := (sound f).args0 _ _ _ _ _ _ h
      rw [g, List.length_append, List.length_cons]; omega
    · rcases (sound f).args _ _ _ _ _ _ _ ha h with ⟨g, _, _⟩ | ⟨as, ms, mm, _, _, _, _, g⟩
      · rw [g, List.length_cons]; omega
      · rw [g, List.length_cons, List.length_append, List.length_cons]; omega
  tail_len (f : Nat) (q : Nat) (n : Node) (ts : List Token) (n' : Node) (rest : List Token) (h : Parse.tail f q n ts = .ok (some (n', rest))) :
      rest.length < ts.length := by
    cases f with
    | zero => rw [Parse.tail] at h; cases h
    | succ f =>
      cases ts with
      | nil => rw [tail.eq_def] at h; cases h
      | cons t ts =>
        have hx : ∀ q ts n rest, Parse.expr f q ts = .ok (n, rest) → rest.length < ts.length := by
          intro q ts n rest h
          obtain ⟨e, g1, g2, _⟩ := (sound f).expr q ts n rest h
          have : e.toks.length ≠ 0 := by simpa using toks_ne g1
          rw [g2, List.length_append]; omega
        rw [List.length_cons]
        rw [tail.eq_def] at h
        dsimp only at h
        split at h
        case isFalse => cases h
        split at h
        · cases h
        split at h
        · cases ts with
          | nil => cases h
          | cons t1 ts =>
            dsimp only at h
            split at h
            · cases h; simp only [List.length_cons]; omega
            · cases h
        split at h
        · obtain ⟨⟨a, b, c⟩, ha, h⟩ := R.bind_ok h
          obtain ⟨m, _, h⟩ := R.bind_ok h
          cases h
          have := args_len f _ _ _ _ _ _ _ ha
          dsimp only
          omega
        split at h
        · obtain ⟨⟨a, b, c⟩, ha, h⟩ := R.bind_ok h
          cases h
          have := args_len f _ _ _ _ _ _ _ ha
          dsimp only
          omega
        split at h
        · split at h
          · cases h
          split at h
          · obtain ⟨⟨a, b⟩, ha, h⟩ := R.bind_ok h
            obtain ⟨c, hc, h⟩ := R.bind_ok h
            obtain ⟨⟨d, r⟩, hd, h⟩ := R.bind_ok h
            cases h
            have h1 := hx _ _ _ _ ha
            have h2 := hx _ _ _ _ hd
            have hc := consumeOp_ok hc
            dsimp only at hc
            rw [hc, List.length_cons] at h1
            exact Nat.lt_succ_of_lt (by simp only; omega)
          split at h
          · obtain ⟨⟨a, b⟩, ha, h⟩ := R.bind_ok h
            obtain ⟨c, hc, h⟩ := R.bind_ok h
            cases h
            obtain ⟨k, r, b, g1, _, _, _, _, _, g2, _⟩ := (sound f).ann _ _ _ ha
            dsimp only
            rw [g2, List.length_append, List.length_append]; omega
          · obtain ⟨⟨a, b⟩, ha, h⟩ := R.bind_ok h
            obtain ⟨c, hc, h⟩ := R.bind_ok h
            cases h
            have h1 := hx _ _ _ _ ha
            dsimp only
            omega
        split at h
        · cases h; omega
        split at h <;> cases h

/-- with so much fuel, none of the parts runs out of it -/
structure Ends (f : Nat) : Prop where
  expr : ∀ q ts, 4 * ts.length + 2 ≤ f → Parse.expr f q ts ≠ .fuel
  tails : ∀ q n ts, 4 * ts.length + 2 ≤ f → Parse.tails f q n ts ≠ .fuel
  head : ∀ ts, 4 * ts.length + 1 ≤ f → Parse.head f ts ≠ .fuel
  tail : ∀ q n ts, 4 * ts.length + 1 ≤ f → Parse.tail f q n ts ≠ .fuel
  ann : ∀ ts, 4 * ts.length + 3 ≤ f → typeAnnot f ts ≠ .fuel
  body : ∀ endop acc named ts, 4 * ts.length + 3 ≤ f → argsBody f endop acc named ts ≠ .fuel
  args : ∀ endop acc named ts, 4 * ts.length + 4 ≤ f → Parse.args f endop acc named ts ≠ .fuel

theorem combine_fuel (o : String) (a b : Node) : combine o a b ≠ .fuel := by
  unfold combine pipelineRight pipelineLeft letShorthand
  repeat' split
  all_goals (intro h; cases h)

theorem createRead_fuel (v : String) : createRead v ≠ .fuel := by
  unfold createRead
  repeat' split
  all_goals (intro h; cases h)

theorem createPrefix_fuel (v : String) (n : Node) : createPrefix v n ≠ .fuel := by
  unfold createPrefix
  repeat' split
  all_goals (intro h; cases h)

theorem callExpr_fuel (n : Node) (ns : List Node) (fl : Flags) : callExpr n ns fl ≠ .fuel := by
  unfold callExpr
  dsimp only
  repeat' split
  all_goals (intro h; cases h)

theorem consumeOp_fuel (v : String) (ts : List Token) : consumeOp v ts ≠ .fuel := by
  unfold consumeOp
  repeat' split
  all_goals (intro h; cases h)

theorem softComma_fuel (v : String) (ts : List Token) : softComma v ts ≠ .fuel := by
  unfold softComma
  repeat' split
  all_goals (intro h; cases h)

theorem argNode_fuel (a : ArgHead) (n : Node) : argNode a n ≠ .fuel := by
  cases a with
  | pos => intro h; cases h
  | named => intro h; cases h
  | auto o =>
    unfold argNode
    refine R.bind_fuel ?_ fun _ _ => ok_ne_fuel _
    cases getAutoName (depth n) n <;> (intro h; cases h)

theorem argHead_len (ts : List Token) : (argHead ts).2.length ≤ ts.length := by
  obtain ⟨l, _, h⟩ := argHead_ok (ts := ts)
  have := congrArg List.length h
  rw [List.length_append] at this
  omega

theorem softComma_len {v : String} {ts ts' : List Token} (h : softComma v ts = .ok ts') : ts'.length ≤ ts.length := by
  rcases softComma_ok h with h | ⟨h, _⟩
  · rw [h, List.length_cons]; omega
  · rw [h]; omega

theorem ends (f : Nat) : Ends f := by
  induction f with
  | zero => exact ⟨by omega, by omega, by omega, by omega, by omega, by omega, by omega⟩
  | succ f ih =>
    have sh := shrinks f
    refine ⟨?_, ?_, ?_, ?_, ?_, ?_, ?_⟩
    · intro q ts hf
      rw [Parse.expr]
      refine R.bind_fuel (ih.head _ (by omega)) fun ⟨n, t1⟩ h => ?_
      have := sh.head _ _ _ h
      exact ih.tails _ _ _ (by omega)
    · intro q n ts hf
      rw [Parse.tails]
      refine R.bind_fuel (ih.tail _ _ _ (by omega)) fun o h => ?_
      cases o with
      | none => exact ok_ne_fuel _
      | some x =>
        have := sh.tail _ _ _ _ _ h
        exact ih.tails _ _ _ (by omega)
    · intro ts hf
      cases ts with
      | nil => rw [head.eq_def]; exact fail_ne_fuel
      | cons t ts =>
        rw [List.length_cons] at hf
        rw [head.eq_def]
        dsimp only
        split
        · exact ok_ne_fuel _
        split
        · split
          · exact fail_ne_fuel
          · exact R.bind_fuel (createRead_fuel _) fun _ _ => ok_ne_fuel _
        split
        · split
          · exact R.bind_fuel (ih.expr _ _ (by omega)) fun _ _ => R.bind_fuel (consumeOp_fuel _ _) fun _ _ => ok_ne_fuel _
          split
          · exact R.bind_fuel (ih.args _ _ _ _ (by omega)) fun _ _ => ok_ne_fuel _
          split
          · exact ok_ne_fuel _
          split
          · exact fail_ne_fuel
          split
          · exact R.bind_fuel (ih.expr _ _ (by omega)) fun _ _ => R.bind_fuel (createPrefix_fuel _ _) fun _ _ => ok_ne_fuel _
          · exact fail_ne_fuel
        · exact fail_ne_fuel
    · intro q n ts hf
      cases ts with
      | nil => rw [tail.eq_def]; exact fail_ne_fuel
      | cons t ts =>
        rw [List.length_cons] at hf
        rw [tail.eq_def]
        dsimp only
        split
        · split
          · exact ok_ne_fuel _
          split
          · cases ts with
            | nil => exact fail_ne_fuel
            | cons t1 ts => dsimp only; split <;> first | exact ok_ne_fuel _ | exact fail_ne_fuel
          split
          · exact R.bind_fuel (ih.args _ _ _ _ (by omega)) fun _ _ => R.bind_fuel (callExpr_fuel _ _ _) fun _ _ => ok_ne_fuel _
          split
          · exact R.bind_fuel (ih.args _ _ _ _ (by omega)) fun _ _ => ok_ne_fuel _
          split
          · split
            · exact ok_ne_fuel _
            split
            · refine R.bind_fuel (ih.expr _ _ (by omega)) fun ⟨a, b⟩ h => R.bind_fuel (consumeOp_fuel _ _) fun c hc =>
                R.bind_fuel (ih.expr _ _ ?_) fun _ _ => ok_ne_fuel _
              have h1 := sh.expr _ _ _ _ h
              have hc := consumeOp_ok hc
              dsimp only at hc
              rw [hc, List.length_cons] at h1
              omega
            split
            · exact R.bind_fuel (ih.ann _ (by omega)) fun _ _ => R.bind_fuel (combine_fuel _ _ _) fun _ _ => ok_ne_fuel _
            · exact R.bind_fuel (ih.expr _ _ (by omega)) fun _ _ => R.bind_fuel (combine_fuel _ _ _) fun _ _ => ok_ne_fuel _
          split
          · exact ok_ne_fuel _
          split
          · exact fail_ne_fuel
          · exact ok_ne_fuel _
        · exact ok_ne_fuel _
    · intro ts hf
      cases ts with
      | nil => rw [typeAnnot.eq_def]; exact fail_ne_fuel
      | cons t ts =>
        rw [List.length_cons] at hf
        rw [typeAnnot.eq_def]
        dsimp only
        split
        · cases ts with
          | nil => exact fail_ne_fuel
          | cons t1 ts =>
            rw [List.length_cons] at hf
            dsimp only
            split
            · exact R.bind_fuel (ih.expr _ _ (by omega)) fun _ _ => ok_ne_fuel _
            · exact R.bind_fuel (ih.expr _ _ (by rw [List.length_cons]; omega)) fun _ _ => ok_ne_fuel _
        · exact ih.expr _ _ (by rw [List.length_cons]; omega)
    · intro endop acc named ts hf
      cases ts with
      | nil => rw [argsBody.eq_def]; exact fail_ne_fuel
      | cons t ts =>
        rw [argsBody.eq_def]
        dsimp only
        have hh := argHead_len (t :: ts)
        split
        · exact ok_ne_fuel _
        · refine R.bind_fuel (ih.expr _ _ (by omega)) fun ⟨a, b⟩ h => R.bind_fuel (argNode_fuel _ _) fun c hc => ih.args _ _ _ _ ?_
          have := sh.expr _ _ _ _ h
          dsimp only
          omega
    · intro endop acc named ts hf
      rw [Parse.args]
      refine R.bind_fuel ?_ fun a h => ?_
      · split
        · exact ok_ne_fuel _
        · exact softComma_fuel _ _
      · refine ih.body _ _ _ _ ?_
        split at h
        · cases h; omega
        · have := softComma_len h
          omega

/-- **C71.** Reading an expression ends, whatever the tokens: with a tree or with an error, after a number of nested calls
that is linear in their number.  (`fuel` is how deep the calls may nest.) -/
theorem terminates (q : Nat) (ts : List Token) (f : Nat) (hf : 4 * ts.length + 2 ≤ f) : expr f q ts ≠ .fuel := (ends f).expr q ts hf

end Verif.Parse
