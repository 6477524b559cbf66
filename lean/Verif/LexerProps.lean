import Verif.LexerNum2
import Verif.LexerLit
/-!
# The lexer reads exactly the lexical grammar (C27, C28)
-/
namespace Verif.Lexer
open Verif

/-! ### One step -/

/-- The state after the piece `p`. -/
def after (st : St) (p : Piece) : St :=
  { idx := st.idx + p.text.length
    line := (adv p.text st.idx (st.line, st.lidx)).1
    lidx := (adv p.text st.idx (st.line, st.lidx)).2
    tokens := st.tokens ++ (match p.token with
      | none => []
      | some (k, v) => [⟨k, v, st.line, st.idx - st.lidx, p.text.length⟩]) }

theorem token_eq (st : St) (k : Kind) (v : Str) (n : Nat) (t : Str) (ht : newline ∉ t) (hn : t.length = n) :
    st.token k v st.idx (st.idx + n) = ⟨st.idx + t.length, (adv t st.idx (st.line, st.lidx)).1,
      (adv t st.idx (st.line, st.lidx)).2, st.tokens ++ [⟨k, v, st.line, st.idx - st.lidx, t.length⟩]⟩ := by
  rw [adv_none t ht]
  unfold St.token
  subst hn
  congr 4; omega

theorem letter_facts (c : Byte) (h : letter c = true) : blank c = false ∧ c ≠ newline := by
  have := byte_all (fun c => !letter c || (!blank c && c != newline)) (by decide +kernel) c
  simpa [h] using this
theorem digit_facts (c : Byte) (h : digit c = true) : blank c = false ∧ letter c = false ∧ c ≠ newline := by
  have := byte_all (fun c => !digit c || (!blank c && !letter c && c != newline)) (by decide +kernel) c
  simp [h] at this; tauto
theorem quote_class {q : Byte} (h : Quote q) : blank q = false ∧ letter q = false ∧ digit q = false := by
  rcases h with rfl | rfl | rfl <;> decide
theorem op_class : ∀ c ∈ OPTOKENS, blank c = false ∧ letter c = false ∧ digit c = false ∧ c ≠ ch '\'' ∧ c ≠ ch '"' ∧ c ≠ ch '`' ∧
    c ≠ newline := by decide +kernel

theorem not_nl_digs (B : Base) (ds : Digs) (h : ∀ d ∈ ds, B.digit d.2 = true) : newline ∉ Digs.text ds := by
  have hB : ∀ b, B.digit b = true → b ≠ newline := by
    intro b hb
    rintro rfl
    revert hb; cases B <;> decide
  intro hm
  unfold Digs.text at hm
  rw [List.mem_flatMap] at hm
  obtain ⟨d, hd, hm⟩ := hm
  split_ifs at hm
  · simp only [List.mem_cons, List.not_mem_nil, or_false] at hm
    rcases hm with hm | hm
    · exact absurd hm (by decide)
    · exact hB _ (h d hd) hm.symm
  · simp only [List.mem_cons, List.not_mem_nil, or_false] at hm
    exact hB _ (h d hd) hm.symm

theorem num_no_nl (n : Num) (hv : n.Valid) : newline ∉ n.text := by
  intro hm
  unfold Num.text at hm
  simp only [List.mem_append] at hm
  rcases hm with hm | hm | hm | hm
  · unfold Num.prefixText at hm
    split at hm <;> revert hm <;> decide
  · exact not_nl_digs n.base _ hv.digits hm
  · cases hf : n.frac with
    | none => rw [hf] at hm; simp [fracText] at hm
    | some f =>
      rw [hf] at hm; simp only [fracText, List.mem_cons] at hm
      rcases hm with hm | hm
      · exact absurd hm (by decide)
      · exact not_nl_digs n.base _ (hv.frac f hf).2 hm
  · cases hx : n.exp with
    | none => rw [hx] at hm; simp [expText] at hm
    | some x =>
      obtain ⟨m, s, e⟩ := x
      obtain ⟨x1, x2, x3, x4⟩ := hv.exp m s e hx
      rw [hx] at hm; simp only [expText, List.mem_cons, List.mem_append, Option.mem_toList] at hm
      rcases hm with hm | hm | hm
      · subst hm; revert x1; cases n.base <;> decide
      · rcases x2 _ hm with h | h <;> exact absurd h (by decide)
      · exact not_nl_digs n.base _ x4 hm

theorem num_first (n : Num) (hv : n.Valid) : ∃ c t, n.text = c :: t ∧ digit c = true := by
  cases hb : n.base with
  | dec =>
    obtain ⟨d, ds, e, -⟩ := hv.dec hb
    have hd := hv.digits (false, d) (by rw [e]; simp)
    rw [hb] at hd
    refine ⟨d, Digs.text ds ++ (fracText n.frac ++ expText n.exp), ?_, hd⟩
    unfold Num.text Num.prefixText; rw [hb, e, digs_cons]; simp
  | hex | oct | bin =>
    all_goals
      have : ∃ x, n.prefixText = [ch '0', x] := by
        unfold Num.prefixText; rw [hb]; cases n.upper <;> exact ⟨_, rfl⟩
      obtain ⟨x, hx⟩ := this
      exact ⟨ch '0', x :: (Digs.text n.int ++ (fracText n.frac ++ expText n.exp)), by unfold Num.text; rw [hx]; rfl, by decide⟩

theorem slashThen_eq (src : Str) (c d : Byte) (t : Str) (i : Nat) (h : src.drop i = t) :
    slashThen src c d i = .ok (decide (c = ch '/' ∧ t.head? = some d)) := by
  unfold slashThen
  cases t with
  | nil => rw [if_neg (fun e => drop_nil h e.2)]; simp
  | cons e t =>
    by_cases hc : c = ch '/'
    · rw [if_pos ⟨hc, (drop_cons h).1⟩, rd_cons h]
      simp only [bind, Except.bind, hc, List.head?_cons, Option.some.injEq, true_and]
      rfl
    · rw [if_neg (fun e => hc e.1)]; simp [hc]

theorem prefix2 (a b : Byte) (c : Byte) (t : Str) : [a, b] <+: c :: t ↔ c = a ∧ t.head? = some b := by
  constructor
  · rintro ⟨w, hw⟩
    simp at hw
    obtain ⟨rfl, rfl⟩ := hw
    exact ⟨rfl, rfl⟩
  · rintro ⟨rfl, h⟩
    cases t with
    | nil => simp at h
    | cons x t => simp at h; subst h; exact ⟨t, rfl⟩

/-- A valid piece at the current index is read as such. -/
theorem step_ok (src : Str) (st : St) (p : Piece) (rest : Str) (h : src.drop st.idx = p.text ++ rest) (hv : p.Valid rest) :
    step src st = .ok (after st p) := by
  unfold step
  cases p with
  | blank b =>
    have h' : src.drop st.idx = b :: rest := h
    have hb : blank b = true := hv
    rw [rd_cons h']
    simp only [bind, Except.bind, blank_eq, hb, if_true]
    unfold after
    simp only [Piece.text, Piece.token, adv, List.append_nil, List.length_cons, List.length_nil]
    by_cases hn : b = 0x0a#8
    · rw [if_pos hn, if_pos (show b = newline from hn)]
    · rw [if_neg hn, if_neg (show ¬ b = newline from hn)]
  | ident s =>
    obtain ⟨⟨c, t, rfl, hc, ht⟩, hr⟩ := hv
    have h' : src.drop st.idx = c :: (t ++ rest) := h
    obtain ⟨f1, f2⟩ := letter_facts c hc
    rw [rd_cons h']
    simp only [bind, Except.bind, blank_eq, idStart_eq, f1, hc, if_true, Bool.false_eq_true, if_false]
    rw [idLoop_eq src t rest (st.idx + 1) (drop_cons h').2.2 (fun b hb => by rw [idChar_eq]; simpa using ht b hb)
      (fun b u e => by rw [idChar_eq]; have := hr b u e; simpa using this)]
    have hs := slice_eq (a := c :: t) (b := rest) h (by have := (drop_cons h').1; omega)
    rw [show st.idx + 1 + t.length = st.idx + (c :: t).length by simp; omega]
    dsimp only
    rw [hs]
    dsimp only
    rw [token_eq st .id (c :: t) _ (c :: t) ?_ rfl]
    · rfl
    · intro hm
      simp only [List.mem_cons] at hm
      rcases hm with hm | hm
      · exact f2 hm.symm
      · rcases ht _ hm with h | h
        · exact (letter_facts _ h).2 rfl
        · exact (digit_facts _ h).2.2 rfl
  | num n =>
    obtain ⟨hn, he⟩ := hv
    obtain ⟨c, t, htext, hc⟩ := num_first n hn
    have hdrop : src.drop st.idx = n.text ++ rest := h
    have h' : src.drop st.idx = c :: (t ++ rest) := by rw [hdrop, htext]; rfl
    obtain ⟨f1, f2, f3⟩ := digit_facts c hc
    rw [rd_cons h']
    simp only [bind, Except.bind, blank_eq, idStart_eq, digit_eq, f1, f2, hc, if_true, Bool.false_eq_true, if_false]
    rw [number_ok src st n rest hn he c (t ++ rest) hdrop (by rw [htext]; rfl)]
    rw [token_eq st _ _ _ n.text (num_no_nl n hn) rfl]
    rfl
  | lit q items =>
    obtain ⟨hq, hi, h1⟩ := hv
    have h' : src.drop st.idx = q :: (items.flatMap Item.text ++ [q] ++ rest) := h
    obtain ⟨f1, f2, f3⟩ := quote_class hq
    rw [rd_cons h']
    simp only [bind, Except.bind, blank_eq, idStart_eq, digit_eq, f1, f2, f3, Bool.false_eq_true, if_false]
    rw [if_pos (show q = ch '\'' ∨ q = ch '"' ∨ q = ch '`' from hq)]
    rw [literal_ok src st q hq items hi rest h1 h]
    rfl
  | op s =>
    obtain ⟨ho, hl, hn1, hn2⟩ := hv
    have hf := op_facts ho
    obtain ⟨c, t, hs⟩ : ∃ c t, s = c :: t := by
      cases s with
      | nil => simp at hf
      | cons c t => exact ⟨c, t, rfl⟩
    have hdrop : src.drop st.idx = s ++ rest := h
    have h' : src.drop st.idx = c :: (t ++ rest) := by rw [hdrop, hs]; rfl
    have hc : c ∈ OPTOKENS := by have := hf.2.2 c (by rw [hs]; simp); simpa using this
    obtain ⟨f1, f2, f3, f4, f5, f6, f7⟩ := op_class c hc
    rw [rd_cons h']
    simp only [bind, Except.bind, blank_eq, idStart_eq, digit_eq, f1, f2, f3, Bool.false_eq_true, if_false]
    rw [if_neg (by tauto)]
    unfold commentOrOp
    have h2 := (drop_cons h').2.2
    rw [slashThen_eq src c (ch '/') _ _ h2]
    have e1 : ¬ (c = ch '/' ∧ (t ++ rest).head? = some (ch '/')) := by
      rw [← prefix2]; rw [hs] at hn1; exact hn1
    have e2 : ¬ (c = ch '/' ∧ (t ++ rest).head? = some (ch '*')) := by
      rw [← prefix2]; rw [hs] at hn2; exact hn2
    simp only [bind, Except.bind, e1, decide_false, Bool.false_eq_true, if_false]
    rw [slashThen_eq src c (ch '*') _ _ h2]
    simp only [e2, decide_false, Bool.false_eq_true, if_false]
    rw [operator_eq src s rest st c (t ++ rest) hdrop (by rw [hs]; rfl) ho hl]
    rw [token_eq st .op s _ s ?_ rfl]
    · rfl
    · intro hm
      have := hf.2.2 _ hm
      revert this; decide
  | line body closed =>
    obtain ⟨hb, hc⟩ := hv
    have h' : src.drop st.idx = ch '/' :: ch '/' :: (body ++ ((if closed then [newline] else []) ++ rest)) := by
      simpa [Piece.text, str] using h
    rw [rd_cons h']
    simp only [bind, Except.bind]
    rw [if_neg (by decide), if_neg (by decide), if_neg (by decide), if_neg (by decide)]
    unfold commentOrOp
    have h2 := (drop_cons h').2.2
    have h3 := (drop_cons h2).2.2
    rw [slashThen_eq src _ (ch '/') _ _ h2]
    simp only [bind, Except.bind, List.head?_cons, and_self, decide_true, if_true]
    rw [lineLoop_eq src body rest closed (st.idx + 2) (st.line, st.lidx) h3 hb hc]
    dsimp only
    unfold after
    have : adv (Piece.line body closed).text st.idx (st.line, st.lidx) =
        adv (body ++ if closed then [newline] else []) (st.idx + 2) (st.line, st.lidx) := by
      unfold Piece.text; rw [adv_append, adv_none (str "//") (by decide)]; rfl
    rw [this]
    simp [Piece.token, Piece.text, str]
    split_ifs <;> omega
  | block body closed =>
    obtain ⟨hb, hc⟩ := hv
    have h' : src.drop st.idx = ch '/' :: ch '*' :: (body ++ ((if closed then str "*/" else []) ++ rest)) := by
      simpa [Piece.text, str] using h
    rw [rd_cons h']
    simp only [bind, Except.bind]
    rw [if_neg (by decide), if_neg (by decide), if_neg (by decide), if_neg (by decide)]
    unfold commentOrOp
    have h2 := (drop_cons h').2.2
    have h3 := (drop_cons h2).2.2
    rw [slashThen_eq src _ (ch '/') _ _ h2]
    simp only [bind, Except.bind, List.head?_cons, Option.some.injEq]
    rw [if_neg (by decide), slashThen_eq src _ (ch '*') _ _ h2]
    simp only [List.head?_cons, and_self, decide_true, if_true]
    rw [blockLoop_eq src body rest closed (st.idx + 2) (st.line, st.lidx) h3 hb hc]
    dsimp only
    unfold after
    have : adv (Piece.block body closed).text st.idx (st.line, st.lidx) =
        adv (body ++ if closed then str "*/" else []) (st.idx + 2) (st.line, st.lidx) := by
      unfold Piece.text; rw [adv_append, adv_none (str "/*") (by decide)]; rfl
    rw [this]
    simp [Piece.token, Piece.text, str]
    split_ifs <;> (simp; try omega)

theorem span_not {α : Type _} [DecidableEq α] (a : α) (l : List α) : ∃ body closed, l = body ++ ((if closed then [a] else []) ++ (l.drop (body.length + 1))) ∧
    a ∉ body ∧ (closed = false → l.drop (body.length + 1) = []) := by
  induction l with
  | nil => exact ⟨[], false, by simp, by simp, by simp⟩
  | cons x l ih =>
    by_cases hx : x = a
    · exact ⟨[], true, by simp [hx], by simp, by simp⟩
    · obtain ⟨body, closed, e, h1, h2⟩ := ih
      refine ⟨x :: body, closed, by simpa using e, by simp; exact ⟨fun e => hx e.symm, h1⟩, by simpa using h2⟩

/-- The first end of a block comment, if there is one. -/
theorem block_split (l : Str) : ∃ body closed rest, l = body ++ ((if closed then str "*/" else []) ++ rest) ∧
    (∀ i < body.length, ¬ str "*/" <+: (body ++ if closed then str "*/" else []).drop i) ∧ (closed = false → rest = []) := by
  induction l with
  | nil => exact ⟨[], false, [], by simp, by simp, by simp⟩
  | cons x l ih =>
    by_cases hx : str "*/" <+: x :: l
    · obtain ⟨w, hw⟩ := hx
      exact ⟨[], true, w, by simpa using hw.symm, by simp, by simp⟩
    · obtain ⟨body, closed, rest, e, h1, h2⟩ := ih
      refine ⟨x :: body, closed, rest, by simp [e], ?_, h2⟩
      intro i hi
      cases i with
      | zero =>
        simp only [List.drop_zero, List.cons_append]
        intro hp
        apply hx
        rw [e]
        obtain ⟨w, hw⟩ := hp
        exact ⟨w ++ rest, by rw [← List.append_assoc, hw]; simp⟩
      | succ i => simpa using h1 i (by simpa using hi)

/-- Every non-empty rest of the source is rejected or starts with a valid piece. -/
theorem step_cases (src : Str) (st : St) (hi : st.idx < src.length) :
    step src st = .error .fail ∨ ∃ (p : Piece) (rest : Str), src.drop st.idx = p.text ++ rest ∧ p.Valid rest := by
  obtain ⟨c, t, h⟩ : ∃ c t, src.drop st.idx = c :: t := ⟨_, _, List.drop_eq_getElem_cons hi⟩
  have ht := (drop_cons h).2.2
  by_cases hb : blank c = true
  · exact Or.inr ⟨.blank c, t, h, hb⟩
  by_cases hl : letter c = true
  · right
    refine ⟨.ident (c :: t.takeWhile idChar), t.dropWhile idChar, by simp [Piece.text, h], ⟨c, t.takeWhile idChar, rfl, hl, ?_⟩, ?_⟩
    · intro b hb
      have := List.all_takeWhile (p := idChar) (l := t)
      rw [List.all_eq_true] at this
      have := this b hb
      rw [idChar_eq] at this; simpa using this
    · intro b u e
      have := List.head?_dropWhile_not idChar t
      rw [e] at this
      simp only [List.head?_cons] at this
      rw [idChar_eq] at this
      simp at this; simp [this]
  by_cases hd : digit c = true
  · unfold step
    rw [rd_cons h]
    simp only [bind, Except.bind, blank_eq, idStart_eq, digit_eq, hb, hl, hd, Bool.false_eq_true, if_false, if_true]
    rcases number_cases src st c t h hd with e | ⟨n, rest, e, v1, v2⟩
    · exact Or.inl e
    · exact Or.inr ⟨.num n, rest, h.trans e, v1, v2⟩
  by_cases hq : Quote c
  · unfold step
    rw [rd_cons h]
    simp only [bind, Except.bind, blank_eq, idStart_eq, digit_eq, hb, hl, hd, Bool.false_eq_true, if_false]
    rw [if_pos (show c = ch '\'' ∨ c = ch '"' ∨ c = ch '`' from hq)]
    rcases literal_cases src st c hq t h with e | ⟨items, rest, e, v1, v2⟩
    · exact Or.inl e
    · exact Or.inr ⟨.lit c items, rest, by rw [h, e]; simp [Piece.text], hq, v1, v2⟩
  by_cases hs : str "//" <+: c :: t
  · right
    obtain ⟨w, hw⟩ := hs
    obtain ⟨body, closed, e, h1, h2⟩ := span_not newline w
    refine ⟨.line body closed, _, ?_, h1, h2⟩
    rw [h, ← hw]; conv => lhs; rw [e]
    simp [Piece.text]
  by_cases hs' : str "/*" <+: c :: t
  · right
    obtain ⟨w, hw⟩ := hs'
    obtain ⟨body, closed, rest, e, h1, h2⟩ := block_split w
    refine ⟨.block body closed, rest, ?_, h1, h2⟩
    rw [h, ← hw, e]; simp [Piece.text]
  by_cases ho : OPTOKENS.contains c = true
  · right
    obtain ⟨s, rest, e, o1, o2⟩ := op_exists (c :: t) c t rfl ho
    exact ⟨.op s, rest, h.trans e, o1, o2, by rw [← e]; exact hs, by rw [← e]; exact hs'⟩
  · left
    unfold step
    rw [rd_cons h]
    simp only [bind, Except.bind, blank_eq, idStart_eq, digit_eq, hb, hl, hd, Bool.false_eq_true, if_false]
    rw [if_neg (show ¬ (c = ch '\'' ∨ c = ch '"' ∨ c = ch '`') from hq)]
    unfold commentOrOp
    rw [slashThen_eq src c _ _ _ ht]
    have e1 : ¬ (c = ch '/' ∧ t.head? = some (ch '/')) := by rw [← prefix2]; exact hs
    have e2 : ¬ (c = ch '/' ∧ t.head? = some (ch '*')) := by rw [← prefix2]; exact hs'
    simp only [bind, Except.bind, e1, decide_false, Bool.false_eq_true, if_false]
    rw [slashThen_eq src c _ _ _ ht]
    simp only [e2, decide_false, Bool.false_eq_true, if_false]
    unfold operator
    rw [if_neg ho]

/-! ### Positions -/

theorem piece_pos (p : Piece) (rest : Str) (hv : p.Valid rest) : 0 < p.text.length := by
  cases p with
  | blank b => simp [Piece.text]
  | line b c => simp [Piece.text, str]
  | block b c => simp [Piece.text, str]
  | ident s => obtain ⟨⟨c, t, rfl, -⟩, -⟩ := hv; simp [Piece.text]
  | num n => obtain ⟨c, t, e, -⟩ := num_first n hv.1; simp [Piece.text, e]
  | lit q i => simp [Piece.text]
  | op s => have := op_facts hv.1; simp [Piece.text]; omega

/-- The line and column that the state tracks are those of the specification. -/
def Tracks (src : Str) (st : St) : Prop := st.line = lineAt src st.idx ∧ st.idx - st.lidx = (colAt src st.idx : Int)

theorem tracks_one (src : Str) (i : Nat) (b : Byte) (t : Str) (s : Nat × Int) (h : src.drop i = b :: t)
    (h1 : s.1 = lineAt src i) (h2 : (i : Int) - s.2 = colAt src i) :
    (adv [b] i s).1 = lineAt src (i + 1) ∧ ((i + 1 : Nat) : Int) - (adv [b] i s).2 = colAt src (i + 1) := by
  have hl := (drop_cons h).1
  have htake : src.take (i + 1) = src.take i ++ [b] := by
    rw [List.take_add_one, (drop_cons h).2.1]; rfl
  simp only [adv]
  unfold lineAt colAt at *
  rw [htake]
  by_cases hb : b = newline
  · rw [if_pos hb]
    subst hb
    simp [h1]; omega
  · rw [if_neg hb]
    refine ⟨by simp [h1, hb], ?_⟩
    simp only [List.reverse_append, List.reverse_cons, List.reverse_nil, List.nil_append, List.cons_append]
    rw [List.takeWhile_cons_of_pos (by simpa using hb)]
    simp only [List.length_cons]
    push_cast at h2 ⊢
    omega

theorem tracks_adv (src a t : Str) (i : Nat) (s : Nat × Int) (h : src.drop i = a ++ t)
    (h1 : s.1 = lineAt src i) (h2 : (i : Int) - s.2 = colAt src i) :
    (adv a i s).1 = lineAt src (i + a.length) ∧ ((i + a.length : Nat) : Int) - (adv a i s).2 = colAt src (i + a.length) := by
  induction a generalizing i s with
  | nil => exact ⟨h1, h2⟩
  | cons b a ih =>
    have h' : src.drop i = b :: (a ++ t) := by simpa using h
    obtain ⟨k1, k2⟩ := tracks_one src i b _ s h' h1 h2
    have := ih (i + 1) (adv [b] i s) (drop_cons h').2.2 k1 k2
    rw [show i + (b :: a).length = i + 1 + a.length by simp; omega]
    exact this

/-! ### The main loop -/

theorem lexLoop_ok (src : Str) (ps : List Piece) (s : Str) (hp : Pieces s ps) (st : St) (h : src.drop st.idx = s) (hle : st.idx ≤ src.length)
    (ht : Tracks src st) :
    ∃ st', lexLoop src st = .ok st' ∧ st'.idx = src.length ∧ Tracks src st' ∧ st'.tokens = st.tokens ++ tokensOf src st.idx ps := by
  induction hp generalizing st with
  | nil =>
    have hn := drop_nil h
    refine ⟨st, ?_, by omega, ht, by simp [tokensOf]⟩
    rw [lexLoop, if_neg hn]
  | @cons p rest ps hv _ ih =>
    have hpos := piece_pos p rest hv
    have hlt : st.idx < src.length := by
      rcases Nat.lt_or_ge st.idx src.length with h' | h'
      · exact h'
      · rw [List.drop_eq_nil_of_le h'] at h
        have := congrArg List.length h
        simp at this; omega
    rw [lexLoop, if_pos hlt, step_ok src st p rest h hv]
    dsimp only
    rw [if_pos (by simp [after]; omega)]
    have htr := tracks_adv src p.text rest st.idx (st.line, st.lidx) h ht.1 ht.2
    obtain ⟨st', e1, e2, e3, e4⟩ := ih (after st p) (drop_add h) (drop_le h hle) htr
    refine ⟨st', e1, e2, e3, ?_⟩
    rw [e4]
    simp only [after, tokensOf]
    rw [List.append_assoc]
    congr 2
    cases p.token with
    | none => rfl
    | some kv =>
      obtain ⟨k, v⟩ := kv
      simp only [List.cons.injEq, Token.mk.injEq, true_and, and_true]
      exact ⟨ht.1, ht.2⟩

theorem lexLoop_cases (src : Str) (st : St) (hle : st.idx ≤ src.length) :
    lexLoop src st = .error .fail ∨ ∃ ps, Pieces (src.drop st.idx) ps := by
  induction hn : src.length - st.idx using Nat.strongRecOn generalizing st with
  | _ n ih =>
    subst hn
    by_cases hlt : st.idx < src.length
    · rcases step_cases src st hlt with e | ⟨p, rest, e, hv⟩
      · left; rw [lexLoop, if_pos hlt, e]
      · have hpos := piece_pos p rest hv
        have hle' := drop_le e hle
        rcases ih (src.length - (after st p).idx) (by simp [after]; omega) (after st p) hle' rfl with e2 | ⟨ps, e2⟩
        · left
          rw [lexLoop, if_pos hlt, step_ok src st p rest e hv]
          dsimp only
          rw [if_pos (by simp [after]; omega), e2]
        · right
          have : src.drop (after st p).idx = rest := drop_add e
          rw [this] at e2
          exact ⟨p :: ps, by rw [e]; exact .cons hv e2⟩
    · right
      rw [List.drop_eq_nil_of_le (by omega)]
      exact ⟨[], .nil⟩

def start : St := St.token { idx := 0, line := 1, lidx := -1, tokens := [] } .sof [] 0 0

theorem start_tracks (src : Str) : Tracks src start := by
  refine ⟨?_, ?_⟩ <;> simp [start, St.token, lineAt, colAt]

theorem lex_eq (src : Str) : lex src = (lexLoop src start).bind fun st =>
    .ok (st.tokens ++ [⟨.eof, [], st.line + 1, st.idx - st.idx, st.idx - st.idx⟩]) := rfl

/-- **C27.** Lexing a sequence of valid pieces returns their tokens, with the kind, the value, the line, the column and
the number of characters of each piece that is not blank or a comment. -/
theorem C27_complete (src : Str) (ps : List Piece) (hp : Pieces src ps) : lex src = .ok (output src ps) := by
  obtain ⟨st', e1, e2, e3, e4⟩ := lexLoop_ok src ps src hp start rfl (by simp [start, St.token]) (start_tracks src)
  rw [lex_eq, e1]
  simp only [Except.bind]
  unfold output
  rw [e4, e3.1, e2]
  simp [start, St.token]

/-- **C27.** For every byte string, `lex` terminates with a diagnostic, or the source is a sequence of valid pieces: no
input makes it read outside the source or loop for ever. -/
theorem C27_total (src : Str) : lex src = .error .fail ∨ ∃ ps, Pieces src ps ∧ lex src = .ok (output src ps) := by
  rcases lexLoop_cases src start (by simp [start, St.token]) with e | ⟨ps, e⟩
  · left; rw [lex_eq, e]; rfl
  · right; exact ⟨ps, e, C27_complete src ps e⟩

/-- **C27.** The sources that are accepted are exactly those of the lexical grammar, and the tokens are those of the
pieces. -/
theorem C27_exact (src : Str) (toks : List Token) :
    lex src = .ok toks ↔ ∃ ps, Pieces src ps ∧ toks = output src ps := by
  constructor
  · intro h
    rcases C27_total src with e | ⟨ps, e1, e2⟩
    · rw [e] at h; cases h
    · rw [e2] at h; injection h with h; exact ⟨ps, e1, h.symm⟩
  · rintro ⟨ps, h, rfl⟩; exact C27_complete src ps h

end Verif.Lexer
