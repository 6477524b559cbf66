import Verif.LexerProps
import Verif.IntlitProps
import Mathlib.Tactic.Linarith
/-!
# What follows from the grammar: order and positions of the tokens, operators by longest match, the self test,
integer tokens (C27, C28)
-/
namespace Verif.Lexer
open Verif

/-- The `n` bytes of the source from offset `o` on. -/
def bytesAt (src : Str) (o n : Nat) : Str := (src.drop o).take n

/-- What the lexer guarantees of a token that starts at offset `o`. -/
structure Sits (src : Str) (o : Nat) (t : Token) : Prop where
  inside : o + t.chars ≤ src.length
  pos : 0 < t.chars
  line : t.line = lineAt src o
  col : t.col = colAt src o
  /-- the value of identifiers and operators is the source text -/
  text : t.kind = .id ∨ t.kind = .op → t.value = bytesAt src o t.chars
  /-- numbers are the source text in lower case -/
  num : t.kind = .int ∨ t.kind = .real → t.value = (bytesAt src o t.chars).map Ascii.lowerB
  /-- operators are the longest known operator at that place -/
  op : t.kind = .op → Op t.value ∧ ∀ s, Op s → s <+: src.drop o → s.length ≤ t.value.length
  kind : t.kind ≠ .sof ∧ t.kind ≠ .eof

theorem sits_of_piece (src : Str) (off : Nat) (p : Piece) (rest : Str) (h : src.drop off = p.text ++ rest) (hv : p.Valid rest)
    (hle : off ≤ src.length) (k : Kind) (v : Str) (ht : p.token = some (k, v)) :
    Sits src off ⟨k, v, lineAt src off, colAt src off, p.text.length⟩ := by
  have hb : bytesAt src off p.text.length = p.text := by unfold bytesAt; rw [h]; simp
  refine ⟨drop_le h hle, piece_pos p rest hv, rfl, rfl, ?_, ?_, ?_, ?_⟩
  · rintro hk; dsimp only at hk ⊢; rw [hb]
    cases p with
    | ident s => simp [Piece.token] at ht; rw [← ht.2]; rfl
    | op s => simp [Piece.token] at ht; rw [← ht.2]; rfl
    | num n => simp [Piece.token] at ht; rw [← ht.1] at hk; split_ifs at hk <;> simp at hk
    | lit q i => simp [Piece.token] at ht; rw [← ht.1] at hk; split_ifs at hk <;> simp at hk
    | blank b => simp [Piece.token] at ht
    | line b c => simp [Piece.token] at ht
    | block b c => simp [Piece.token] at ht
  · rintro hk; dsimp only at hk ⊢; rw [hb]
    cases p with
    | ident s => simp [Piece.token] at ht; rw [← ht.1] at hk; simp at hk
    | op s => simp [Piece.token] at ht; rw [← ht.1] at hk; simp at hk
    | num n => simp [Piece.token] at ht; rw [← ht.2]; rfl
    | lit q i => simp [Piece.token] at ht; rw [← ht.1] at hk; split_ifs at hk <;> simp at hk
    | blank b => simp [Piece.token] at ht
    | line b c => simp [Piece.token] at ht
    | block b c => simp [Piece.token] at ht
  · rintro hk; dsimp only at hk ⊢
    cases p with
    | ident s => simp [Piece.token] at ht; rw [← ht.1] at hk; simp at hk
    | op s =>
      simp [Piece.token] at ht; rw [← ht.2, h]
      exact ⟨hv.1, hv.2.1⟩
    | num n => simp [Piece.token] at ht; rw [← ht.1] at hk; split_ifs at hk
    | lit q i => simp [Piece.token] at ht; rw [← ht.1] at hk; split_ifs at hk
    | blank b => simp [Piece.token] at ht
    | line b c => simp [Piece.token] at ht
    | block b c => simp [Piece.token] at ht
  · cases p with
    | ident s => simp [Piece.token] at ht; simp [← ht.1]
    | op s => simp [Piece.token] at ht; simp [← ht.1]
    | num n => simp [Piece.token] at ht; rw [← ht.1]; dsimp only; split_ifs <;> simp
    | lit q i => simp [Piece.token] at ht; rw [← ht.1]; dsimp only; split_ifs <;> simp
    | blank b => simp [Piece.token] at ht
    | line b c => simp [Piece.token] at ht
    | block b c => simp [Piece.token] at ht

theorem tokens_sit (src s : Str) (ps : List Piece) (hp : Pieces s ps) (off : Nat) (h : src.drop off = s) (hle : off ≤ src.length) :
    ∃ mid : List (Nat × Token), tokensOf src off ps = mid.map (·.2) ∧ (∀ m ∈ mid, off ≤ m.1 ∧ Sits src m.1 m.2) ∧
      mid.Pairwise fun a b => a.1 + a.2.chars ≤ b.1 := by
  induction hp generalizing off with
  | nil => exact ⟨[], rfl, by simp, .nil⟩
  | @cons p rest ps hv _ ih =>
    obtain ⟨mid, e1, e2, e3⟩ := ih (off + p.text.length) (drop_add h) (drop_le h hle)
    rw [tokensOf, e1]
    cases ht : p.token with
    | none => exact ⟨mid, rfl, fun m hm => ⟨by have := (e2 m hm).1; omega, (e2 m hm).2⟩, e3⟩
    | some kv =>
      obtain ⟨k, v⟩ := kv
      have hs := sits_of_piece src off p rest h hv hle k v ht
      refine ⟨(off, ⟨k, v, lineAt src off, colAt src off, p.text.length⟩) :: mid, rfl, ?_, ?_⟩
      · intro m hm
        simp only [List.mem_cons] at hm
        rcases hm with rfl | hm
        · exact ⟨Nat.le_refl _, hs⟩
        · exact ⟨by have := (e2 m hm).1; omega, (e2 m hm).2⟩
      · exact List.Pairwise.cons (fun m hm => (e2 m hm).1) e3

/-- **C27, C28.** When lexing succeeds, every token between the start and the end token has an offset in the source; the
tokens are in source order and do not overlap; line and column are those of the offset; identifiers, operators and
numbers are the exact source text; every operator is the longest known operator at its offset. -/
theorem C27_positions (src : Str) (toks : List Token) (h : lex src = .ok toks) :
    ∃ mid : List (Nat × Token), toks = ⟨.sof, [], 1, 1, 0⟩ :: mid.map (·.2) ++ [⟨.eof, [], lineAt src src.length + 1, 0, 0⟩] ∧
      (∀ m ∈ mid, Sits src m.1 m.2) ∧ mid.Pairwise fun a b => a.1 + a.2.chars ≤ b.1 := by
  obtain ⟨ps, hp, rfl⟩ := (C27_exact src toks).mp h
  obtain ⟨mid, e1, e2, e3⟩ := tokens_sit src src ps hp 0 rfl (by omega)
  exact ⟨mid, by rw [output, e1], fun m hm => (e2 m hm).2, e3⟩

/-- **C28.** Every operator token is the longest known operator that starts at its place. -/
theorem C28_longest (src : Str) (toks : List Token) (h : lex src = .ok toks) (t : Token) (ht : t ∈ toks) (hk : t.kind = .op) :
    ∃ o, t.line = lineAt src o ∧ t.col = colAt src o ∧ t.value <+: src.drop o ∧ Op t.value ∧
      ∀ s, Op s → s <+: src.drop o → s.length ≤ t.value.length := by
  obtain ⟨mid, e, hs, -⟩ := C27_positions src toks h
  rw [e] at ht
  simp only [List.cons_append, List.mem_cons, List.mem_append, List.mem_map, List.not_mem_nil, or_false] at ht
  rcases ht with rfl | ⟨m, hm, rfl⟩ | rfl
  · simp at hk
  · have := hs m hm
    refine ⟨m.1, this.line, this.col, ?_, (this.op hk).1, (this.op hk).2⟩
    rw [this.text (Or.inr hk)]; exact List.take_prefix _ _
  · simp at hk

/-- `ops` splits `s` greedily into known operators. -/
inductive Greedy : Str → List Str → Prop
  | nil : Greedy [] []
  | cons {o rest os} : Op o → (∀ o', Op o' → o' <+: o ++ rest → o'.length ≤ o.length) → Greedy rest os → Greedy (o ++ rest) (o :: os)

/-- **C28.** Every run of operator characters without the beginning of a comment is accepted, and is split greedily. -/
theorem C28_runs (src : Str) (hop : ∀ b ∈ src, b ∈ OPTOKENS) (hc : ¬ str "//" <:+: src ∧ ¬ str "/*" <:+: src) :
    ∃ toks ops, lex src = .ok toks ∧ Greedy src ops ∧ ops.flatten = src ∧
      (toks.filter (fun t => t.kind = .op)).map (·.value) = ops := by
  have key : ∀ s : Str, (∀ b ∈ s, b ∈ OPTOKENS) → ¬ str "//" <:+: s ∧ ¬ str "/*" <:+: s →
      ∃ ops, Pieces s (ops.map Piece.op) ∧ Greedy s ops ∧ ops.flatten = s := by
    intro s
    induction hn : s.length using Nat.strongRecOn generalizing s with
    | _ n ih =>
      subst hn
      intro hop hc
      cases s with
      | nil => exact ⟨[], .nil, .nil, rfl⟩
      | cons c t =>
        obtain ⟨o, rest, e, o1, o2⟩ := op_exists (c :: t) c t rfl (by simpa using hop c (by simp))
        have hpos := (op_facts o1).1
        obtain ⟨ops, h1, h2, h3⟩ := ih rest.length (by rw [e]; simp; omega) rest rfl
          (fun b hb => hop b (by rw [e]; simp [hb]))
          ⟨fun ⟨a, b, hab⟩ => hc.1 ⟨o ++ a, b, by rw [e, ← hab]; simp⟩, fun ⟨a, b, hab⟩ => hc.2 ⟨o ++ a, b, by rw [e, ← hab]; simp⟩⟩
        rw [e] at hc ⊢
        refine ⟨o :: ops, ?_, .cons o1 o2 h2, by simp [h3]⟩
        refine Pieces.cons (p := .op o) ⟨o1, o2, fun hp => hc.1 hp.isInfix, fun hp => hc.2 hp.isInfix⟩ h1
  obtain ⟨ops, h1, h2, h3⟩ := key src hop hc
  refine ⟨_, ops, C27_complete src _ h1, h2, h3, ?_⟩
  have : ∀ (os : List Str) off, ((tokensOf src off (os.map Piece.op)).filter (fun t => t.kind = .op)).map (·.value) = os := by
    intro os
    induction os with
    | nil => intro off; rfl
    | cons o os ih => intro off; simp [tokensOf, Piece.token, ih]
  unfold output
  simp [this]

/-! ### The self test -/

theorem item_len (q : Byte) (i : Item) (hv : i.Valid q) : (i.value q).length ≤ i.text.length := by
  cases i with
  | plain b => simp [Item.value, Item.text]
  | esc c => simp [Item.value, Item.text]; cases escVal q c <;> simp
  | hex a b => simp [Item.value, Item.text]
  | uni ds =>
    have h4 : ∀ c, (Unicode.rfc c).length ≤ 4 := by intro c; unfold Unicode.rfc; split_ifs <;> simp
    have := h4 (hexNum ds)
    simp only [Item.value, Item.text, List.length_map, List.length_cons, List.length_append, List.length_nil]
    have := hv.1; omega

/-- **C27.** The checks of `SELF_TEST` (src/lexer.fu:56-58) never throw: columns are not negative, and no token's value
is longer than its text. -/
theorem C27_self_test (src : Str) (toks : List Token) (h : lex src = .ok toks) (t : Token) (ht : t ∈ toks) :
    0 ≤ t.col ∧ t.value.length ≤ t.chars := by
  obtain ⟨ps, hp, rfl⟩ := (C27_exact src toks).mp h
  unfold output at ht
  simp only [List.cons_append, List.mem_cons, List.mem_append, List.not_mem_nil, or_false] at ht
  rcases ht with rfl | ht | rfl
  · simp
  · have key : ∀ (s : Str) (ps : List Piece), Pieces s ps → ∀ off, t ∈ tokensOf src off ps → 0 ≤ t.col ∧ t.value.length ≤ t.chars := by
      intro s ps hp
      induction hp with
      | nil => intro off h; simp [tokensOf] at h
      | @cons p rest ps hv _ ih =>
        intro off h
        rw [tokensOf, List.mem_append] at h
        rcases h with h | h
        · cases hk : p.token with
          | none => rw [hk] at h; simp at h
          | some kv =>
            obtain ⟨k, v⟩ := kv
            rw [hk] at h
            simp only [List.mem_cons, List.not_mem_nil, or_false] at h
            subst h
            refine ⟨by simp, ?_⟩
            cases p with
            | blank b => simp [Piece.token] at hk
            | line b c => simp [Piece.token] at hk
            | block b c => simp [Piece.token] at hk
            | ident s => simp [Piece.token] at hk; simp [Piece.text, ← hk.2]
            | op s => simp [Piece.token] at hk; simp [Piece.text, ← hk.2]
            | num n => simp [Piece.token] at hk; simp [Piece.text, ← hk.2]
            | lit q items =>
              simp [Piece.token] at hk
              rw [← hk.2]
              have : ∀ l : List Item, (∀ i ∈ l, i.Valid q) → (l.flatMap (Item.value q)).length ≤ (l.flatMap Item.text).length := by
                intro l
                induction l with
                | nil => simp
                | cons i l ih =>
                  intro hl
                  have h1 := item_len q i (hl i (by simp))
                  have h2 := ih (fun j hj => hl j (by simp [hj]))
                  simp only [List.flatMap_cons, List.length_append]; omega
              have := this items hv.2.1
              simp only [Piece.text, List.length_cons, List.length_append, List.length_nil]; omega
        · exact ih _ h
    exact key src ps hp 0 ht
  · simp

/-! ### Integer tokens -/

/-- The radix of each base. -/
def Base.radix : Base → Nat | .dec => 10 | .hex => 16 | .oct => 8 | .bin => 2

theorem digit_value (B : Base) (d : Byte) (h : B.digit d = true) :
    Ascii.lowerB d = Intlit.digitChar (hexVal d) ∧ hexVal d < B.radix := by
  have := byte_all (fun d => [Base.dec, .hex, .oct, .bin].all fun B => !(B.digit d) ||
    (Ascii.lowerB d == Intlit.digitChar (hexVal d) && decide (hexVal d < B.radix)))
    (by decide +kernel) d
  cases B <;> simp [h] at this <;> simp_all

/-- **C27.** Every integer token is a literal in the sense of C29: `Intlit` reads it exactly or rejects it. -/
theorem C27_int_tokens (src : Str) (toks : List Token) (h : lex src = .ok toks) (t : Token) (ht : t ∈ toks) (hk : t.kind = .int) :
    ∃ l : Intlit.Lit, l.Valid ∧ l.sign = none ∧ l.u = false ∧ l.text = t.value := by
  obtain ⟨ps, hp, rfl⟩ := (C27_exact src toks).mp h
  unfold output at ht
  simp only [List.cons_append, List.mem_cons, List.mem_append, List.not_mem_nil, or_false] at ht
  rcases ht with rfl | ht | rfl
  · simp at hk
  · have key : ∀ (s : Str) (ps : List Piece), Pieces s ps → ∀ off, t ∈ tokensOf src off ps →
        ∃ n : Num, n.Valid ∧ n.frac = none ∧ n.exp = none ∧ t.value = n.text.map Ascii.lowerB := by
      intro s ps hp
      induction hp with
      | nil => intro off h; simp [tokensOf] at h
      | @cons p rest ps hv _ ih =>
        intro off h
        rw [tokensOf, List.mem_append] at h
        rcases h with h | h
        · cases hk' : p.token with
          | none => rw [hk'] at h; simp at h
          | some kv =>
            obtain ⟨k, v⟩ := kv
            rw [hk'] at h
            simp only [List.mem_cons, List.not_mem_nil, or_false] at h
            subst h
            dsimp only at hk
            subst hk
            cases p with
            | blank b => simp [Piece.token] at hk'
            | line b c => simp [Piece.token] at hk'
            | block b c => simp [Piece.token] at hk'
            | ident s => simp [Piece.token] at hk'
            | op s => simp [Piece.token] at hk'
            | lit q items => simp [Piece.token] at hk'; have := hk'.1; split_ifs at this
            | num n =>
              simp [Piece.token] at hk'
              refine ⟨n, hv.1, hk'.1.1, hk'.1.2, hk'.2.symm⟩
        · exact ih _ h
    obtain ⟨n, hv, hf, hx, e⟩ := key src ps hp 0 ht
    let base := n.base.radix
    let ds : List (Option Nat) := n.int.flatMap fun d => if d.1 then [none, some (hexVal d.2)] else [some (hexVal d.2)]
    refine ⟨⟨none, base, ds, false⟩, ⟨?_, ?_, ?_⟩, rfl, rfl, ?_⟩
    · show n.base.radix = 10 ∨ n.base.radix = 16 ∨ n.base.radix = 8 ∨ n.base.radix = 2
      cases n.base <;> decide
    · intro d hd
      show d < base
      have hd' : some d ∈ n.int.flatMap fun d => if d.1 then [none, some (hexVal d.2)] else [some (hexVal d.2)] := hd
      rw [List.mem_flatMap] at hd'
      obtain ⟨x, hx', hm⟩ := hd'
      have hv' := (digit_value n.base x.2 (hv.digits x hx')).2
      split_ifs at hm <;> (simp at hm; subst hm; exact hv')
    · have hi : n.int ≠ [] := by
        cases hb : n.base with
        | dec => obtain ⟨d, ds, e, _⟩ := hv.dec hb; rw [e]; simp
        | hex => exact (hv.hex hb).1 hf hx
        | oct => exact (hv.ob (Or.inl hb)).1
        | bin => exact (hv.ob (Or.inr hb)).1
      show ds ≠ []
      obtain ⟨d, r, hr⟩ := List.exists_cons_of_ne_nil hi
      show n.int.flatMap _ ≠ []
      rw [hr]
      cases hd1 : d.1 <;> simp [hd1]
    · rw [e]
      have hdig : ∀ l : Digs, (∀ d ∈ l, n.base.digit d.2 = true) →
          ((l.flatMap fun d => if d.1 then [none, some (hexVal d.2)] else [some (hexVal d.2)]).map
            fun d : Option Nat => match d with | none => ch '_' | some d => Intlit.digitChar d) = (Digs.text l).map Ascii.lowerB := by
        intro l
        induction l with
        | nil => intro _; rfl
        | cons d l ih =>
          intro hl
          have h1 := (digit_value n.base d.2 (hl d (by simp))).1
          rw [digs_cons, List.flatMap_cons, List.map_append, List.map_append, ih (fun x hx => hl x (by simp [hx]))]
          congr 1
          split_ifs
          · simp only [List.map_cons, List.map_nil, h1]
            rw [show Ascii.lowerB (ch '_') = ch '_' by decide]
          · simp only [List.map_cons, List.map_nil, h1]
      unfold Intlit.Lit.text Intlit.Lit.signText Intlit.Lit.prefixText Intlit.Lit.digitText Num.text
      rw [hf, hx]
      simp only [fracText, expText, List.append_nil, List.nil_append, Bool.false_eq_true, if_false, List.map_append]
      rw [← hdig n.int hv.digits]
      show (if base = 16 then str "0x" else if base = 8 then str "0o" else if base = 2 then str "0b" else []) ++ _ = _
      congr 1
      show (if n.base.radix = 16 then str "0x"
        else if n.base.radix = 8 then str "0o"
        else if n.base.radix = 2 then str "0b" else []) = _
      unfold Num.prefixText
      cases hb : n.base <;> cases hu : n.upper <;> decide
  · simp at hk

/-! ### Non-vacuity, and surprises -/

/-- A source with every kind of piece. -/
example : (lex (str "a1 /*x*/ 0XfF+1.5e3 \"q\\x41\\u{e9}\" // c\n'z'")).map (fun ts => ts.map fun t => (t.kind, t.value, t.line, t.col, t.chars)) =
    .ok [(.sof, [], 1, 1, 0), (.id, str "a1", 1, 1, 2), (.int, str "0xff", 1, 10, 4), (.op, str "+", 1, 14, 1),
      (.real, str "1.5e3", 1, 15, 5), (.str, str "qA" ++ [0xc3#8, 0xa9#8], 1, 21, 13), (.char, str "z", 2, 1, 3), (.eof, [], 3, 0, 0)] := by
  decide +kernel

/-- Bytes of non-ASCII characters are blanks: an identifier with an `é` is silently cut in two. -/
theorem C27_non_ascii_is_blank : (lex (str "caf" ++ [0xc3#8, 0xa9#8] ++ str "s")).map (fun ts => ts.map (·.value)) =
    .ok [[], str "caf", str "s", []] := by decide +kernel

/-- An unterminated block comment is accepted. -/
theorem C27_open_comment_accepted (body : Str) (h : ¬ str "*/" <:+: body) :
    lex (str "/*" ++ body) = .ok (output (str "/*" ++ body) [.block body false]) := by
  refine C27_complete _ _ ?_
  have : Pieces ((Piece.block body false).text ++ []) [.block body false] := by
    refine .cons ⟨?_, fun _ => rfl⟩ .nil
    intro i _ hp
    apply h
    simp only [Bool.false_eq_true, if_false, List.append_nil] at hp
    exact hp.isInfix.trans (List.drop_suffix i body).isInfix
  simpa [Piece.text] using this

/-- Underscores end binary and octal literals, though not the others: `0b1_0` is the number 1 and the name `_0`. -/
theorem C27_binary_underscore : (lex (str "0b1_0")).map (fun ts => ts.map fun t => (t.kind, t.value)) =
    .ok [(.sof, []), (.int, str "0b1"), (.id, str "_0"), (.eof, [])] := by decide +kernel

example : (lex (str "<<=>>=")).map (fun ts => ts.map (·.value)) = .ok [[], str "<<=", str ">>=", []] := by decide +kernel
example : lex (str "a \\ b") = .error .fail := by decide +kernel
example : lex (str "'ab'") = .error .fail ∧ lex (str "\"\\u{110000}\"") = .error .fail ∧ lex (str "01") = .error .fail := by decide +kernel

end Verif.Lexer
