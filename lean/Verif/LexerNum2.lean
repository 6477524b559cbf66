import Verif.LexerNum
/-!
# Numbers, continued: the whole literal
-/
namespace Verif.Lexer
open Verif

/-- The parts of a number after its first digit or prefix, with everything but the existence of digits. -/
structure TailOK (B : Base) (int : Digs) (frac : Option Digs) (exp : Option (Byte × Option Byte × Digs)) (rest : Str) : Prop where
  digits : ∀ d ∈ int, B.digit d.2 = true
  flags : B.isOb = true → ∀ d ∈ int, d.1 = false
  frac : ∀ f, frac = some f → B.isOb = false ∧ (∃ d ds, f = (false, d) :: ds) ∧ ∀ d ∈ f, B.digit d.2 = true
  exp : ∀ m s e, exp = some (m, s, e) → B.mark m = true ∧ (∀ c, s = some c → c = ch '+' ∨ c = ch '-') ∧
    (s = none → ∀ c v, Digs.text e ++ rest = c :: v → c ≠ ch '+' ∧ c ≠ ch '-') ∧ ∀ d ∈ e, B.digit d.2 = true
  digit : ∀ d t, rest = d :: t → ¬ B.digit d
  joined : B.isOb = false → ∀ c d t, rest = c :: d :: t → c = ch '_' ∨ c = ch '.' → ¬ B.digit d
  mark : ∀ m t, rest = m :: t → ¬ B.mark m

/-- The text of these parts. -/
def tailText (int : Digs) (frac : Option Digs) (exp : Option (Byte × Option Byte × Digs)) : Str :=
  Digs.text int ++ (fracText frac ++ expText exp)

theorem loop_exp {src : Str} {B : Base} {int frac exp rest} (H : TailOK B int frac exp rest) (dot : Bool) (i : Nat)
    (h : src.drop i = expText exp ++ rest) :
    loop src B dot false i = .ok (dot, exp.isSome, i + (expText exp).length) := by
  cases exp with
  | none => exact loop_end (by simpa [expText] using h) H.digit H.joined H.mark
  | some x =>
    obtain ⟨m, s, e⟩ := x
    obtain ⟨h1, h2, h3, h4⟩ := H.exp m s e rfl
    have h' : src.drop i = m :: (s.toList ++ (Digs.text e ++ rest)) := by simpa [expText] using h
    have hB := (mark_facts B m h1).2.2.2
    rw [loop_mark h' h1 h2 h3]
    simp only [Bool.false_eq_true, if_false]
    have h5 : src.drop (i + (m :: s.toList).length) = Digs.text e ++ rest := drop_add (by simpa using h')
    rw [loop_digs dot true e rest _ h5 h4 (by simp [hB])]
    rw [loop_end (drop_add h5) H.digit H.joined H.mark]
    simp [expText]; omega

theorem loop_tail {src : Str} {B : Base} {int frac exp rest} (H : TailOK B int frac exp rest) (i : Nat)
    (h : src.drop i = tailText int frac exp ++ rest) :
    loop src B false false i = .ok (frac.isSome, exp.isSome, i + (tailText int frac exp).length) := by
  have h' : src.drop i = Digs.text int ++ (fracText frac ++ (expText exp ++ rest)) := by simpa [tailText] using h
  rw [loop_digs false false int _ i h' H.digits H.flags]
  have h2 := drop_add h'
  cases frac with
  | none =>
    rw [loop_exp H false _ (by simpa [fracText] using h2)]
    simp [tailText, fracText]; omega
  | some f =>
    obtain ⟨hB, ⟨d, ds, rfl⟩, h4⟩ := H.frac f rfl
    have h3 : src.drop (i + (Digs.text int).length) = ch '.' :: d :: (Digs.text ds ++ (expText exp ++ rest)) := by
      simpa [fracText, digs_cons] using h2
    rw [loop_dot h3 hB (h4 (false, d) (by simp))]
    simp only [Bool.or_false, Bool.false_eq_true, if_false]
    have h5 : src.drop (i + (Digs.text int).length + 1) = Digs.text ((false, d) :: ds) ++ (expText exp ++ rest) := by
      rw [(drop_cons h3).2.2, digs_cons]; simp
    rw [loop_digs true false _ _ _ h5 h4 (by simp [hB])]
    rw [loop_exp H true _ (drop_add h5)]
    simp [tailText, fracText]; omega

/-- After a longest group of digits: the end, a fraction, or an exponent. -/
theorem after_digs (B : Base) (rest : Str) (_h1 : ∀ d t, rest = d :: t → ¬ B.digit d)
    (h2 : B.isOb = false → ∀ d t, rest = ch '_' :: d :: t → ¬ B.digit d) :
    (((∀ m t, rest = m :: t → ¬ B.mark m)) ∧ (B.isOb = false → ∀ c d t, rest = c :: d :: t → c = ch '_' ∨ c = ch '.' → ¬ B.digit d)) ∨
    (∃ d t, rest = ch '.' :: d :: t ∧ B.digit d = true ∧ B.isOb = false) ∨ (∃ m t, rest = m :: t ∧ B.mark m = true) := by
  by_cases hm : ∃ m t, rest = m :: t ∧ B.mark m = true
  · exact Or.inr (Or.inr hm)
  by_cases hd : ∃ d t, rest = ch '.' :: d :: t ∧ B.digit d = true ∧ B.isOb = false
  · exact Or.inr (Or.inl hd)
  left
  refine ⟨fun m t e h => hm ⟨m, t, e, h⟩, fun hB c d t e hc => ?_⟩
  rcases hc with rfl | rfl
  · exact h2 hB d t e
  · exact fun h => hd ⟨d, t, e, h, hB⟩

/-- The exponent phase, from a mark on. -/
theorem exp_cases {src : Str} {B : Base} (dot : Bool) (i : Nat) (m : Byte) (t : Str) (h : src.drop i = m :: t) (hm : B.mark m = true) :
    loop src B dot false i = .error .fail ∨ ∃ exp rest, m :: t = expText exp ++ rest ∧ exp.isSome ∧ TailOK B [] none exp rest := by
  obtain ⟨s, u, rfl, hs, hs'⟩ := sign_split t
  have hB := (mark_facts B m hm).2.2.2
  obtain ⟨ds, rest, rfl, d1, d2, d3, d4⟩ := digs_split B u
  have e1 := loop_mark (dot := dot) (exp := false) h hm hs hs'
  simp only [Bool.false_eq_true, if_false] at e1
  have h5 : src.drop (i + (m :: s.toList).length) = Digs.text ds ++ rest := drop_add (by simpa using h)
  rw [loop_digs dot true ds rest _ h5 d1 d2] at e1
  have h6 := drop_add h5
  rcases after_digs B rest d3 d4 with ⟨a1, a2⟩ | ⟨d, t, rfl, a1, a2⟩ | ⟨m', t, rfl, a1⟩
  · right
    refine ⟨some (m, s, ds), rest, by simp [expText], rfl, ⟨by simp, by simp, by simp, ?_, d3, a2, a1⟩⟩
    rintro _ _ _ ⟨⟩
    exact ⟨hm, hs, hs', d1⟩
  · left; rw [e1, loop_dot h6 a2 a1]; simp
  · left
    obtain ⟨s2, u2, rfl, hs2, hs2'⟩ := sign_split t
    rw [e1, loop_mark h6 a1 hs2 hs2']; rfl

theorem tail_cases {src : Str} {B : Base} (i : Nat) (s : Str) (h : src.drop i = s) :
    loop src B false false i = .error .fail ∨ ∃ int frac exp rest, s = tailText int frac exp ++ rest ∧ TailOK B int frac exp rest := by
  obtain ⟨ds, rest, rfl, d1, d2, d3, d4⟩ := digs_split B s
  have e1 := loop_digs false false ds rest i h d1 d2
  have h2 := drop_add h
  rcases after_digs B rest d3 d4 with ⟨a1, a2⟩ | ⟨d, t, rfl, a1, a2⟩ | ⟨m, t, rfl, a1⟩
  · right
    exact ⟨ds, none, none, rest, by simp [tailText, fracText, expText], ⟨d1, d2, by simp, by simp, d3, a2, a1⟩⟩
  · rw [loop_dot h2 a2 a1] at e1
    simp only [Bool.or_false, Bool.false_eq_true, if_false] at e1
    obtain ⟨fs, rest, hf, f1, f2, f3, f4⟩ := digs_split B (d :: t)
    have hf0 : ∃ ds', fs = (false, d) :: ds' := by
      cases fs with
      | nil => exact absurd a1 (f3 d t (by simpa [Digs.text] using hf.symm))
      | cons x fs =>
        obtain ⟨f, x⟩ := x
        rw [digs_cons] at hf
        cases f with
        | false => simp at hf; exact ⟨fs, by rw [hf.1]⟩
        | true =>
          simp at hf
          rw [hf.1, seps_not_digit B _ (by decide)] at a1; simp at a1
    obtain ⟨ds', rfl⟩ := hf0
    have h3 := (drop_cons h2).2.2
    rw [hf] at h3
    have e2 := loop_digs true false _ rest _ h3 f1 f2
    have h4 := drop_add h3
    have hfrac : ∀ f, some ((false, d) :: ds') = some f → B.isOb = false ∧ (∃ d ds, f = (false, d) :: ds) ∧ ∀ d ∈ f, B.digit d.2 = true := by
      rintro _ ⟨⟩; exact ⟨a2, ⟨d, ds', rfl⟩, f1⟩
    rcases after_digs B rest f3 f4 with ⟨b1, b2⟩ | ⟨d', t', rfl, b1, b2⟩ | ⟨m, t', rfl, b1⟩
    · right
      refine ⟨ds, some ((false, d) :: ds'), none, rest, ?_, ⟨d1, d2, hfrac, by simp, f3, b2, b1⟩⟩
      rw [hf]; simp [tailText, fracText, expText]
    · left; rw [e1, e2, loop_dot h4 b2 b1]; simp
    · rcases exp_cases (B := B) true _ m t' h4 b1 with e3 | ⟨exp, rest, e3, e4, H⟩
      · left; rw [e1, e2, e3]
      · right
        refine ⟨ds, some ((false, d) :: ds'), exp, rest, ?_, ⟨d1, d2, hfrac, H.exp, H.digit, H.joined, H.mark⟩⟩
        rw [hf, e3]; simp [tailText, fracText]
  · rcases exp_cases (B := B) false _ m t h2 a1 with e3 | ⟨exp, rest, e3, e4, H⟩
    · left; rw [e1, e3]
    · right
      refine ⟨ds, none, exp, rest, ?_, ⟨d1, d2, by simp, H.exp, H.digit, H.joined, H.mark⟩⟩
      rw [e3]; simp [tailText, fracText]

/-! ### The whole number -/

theorem number_eval {src : Str} {st : St} {c : Byte} {B : Base} {i : Nat} {dot exp : Bool} {pre : Str} {l : Byte} {rest : Str}
    (hp : numPrefix src c (st.idx + 1) = .ok (B.isHex, B.isOb, B.max, i))
    (hl : loop src B false false i = .ok (dot, exp, st.idx + (pre ++ [l]).length))
    (h : src.drop st.idx = (pre ++ [l]) ++ rest) :
    number src c st = if !dig B.isHex (ch '9') l then .error .fail
      else if B.isHex && dot && !exp then .error .fail
      else .ok (st.token (if dot || exp then .real else .int) ((pre ++ [l]).map Ascii.lowerB) st.idx (st.idx + (pre ++ [l]).length)) := by
  unfold number
  dsimp only
  rw [hp]
  simp only [bind, Except.bind]
  unfold loop at hl
  rw [hl]
  dsimp only
  have h2 : src.drop (st.idx + pre.length) = l :: rest := by
    rw [List.append_assoc] at h
    simpa using drop_add h
  have e : st.idx + (pre ++ [l]).length - 1 = st.idx + pre.length := by simp
  rw [e, rd_cons h2]
  dsimp only
  have hi : st.idx ≤ src.length := by have := (drop_cons h2).1; omega
  rw [slice_eq h hi]
  dsimp only
  rw [Ascii.lower_eq]

theorem numPrefix_of (src : Str) (idx : Nat) (n : Num) (hn : n.base ≠ .dec) (rest : Str)
    (h : src.drop idx = n.prefixText ++ rest) :
    numPrefix src (ch '0') (idx + 1) = .ok (n.base.isHex, n.base.isOb, n.base.max, idx + 2) := by
  unfold numPrefix
  rw [if_pos rfl]
  have key : ∀ c, src.drop idx = ch '0' :: c :: rest → peek src (idx + 1) = .ok c := fun c h => peek_cons (drop_cons h).2.2
  unfold Num.prefixText at h
  split at h
  · contradiction
  all_goals
    rename_i hb hu
    rw [hb, key _ (by simpa [str] using h)]
    simp only [bind, Except.bind]
    first
      | (rw [if_pos (by decide)]; rfl)
      | (rw [if_neg (by decide), if_pos (by decide)]; rfl)
      | (rw [if_neg (by decide), if_neg (by decide), if_pos (by decide)]; rfl)

/-- In a decimal number, the first digit is all there is to the prefix - unless a `0` is followed by a base letter or by
another digit. -/
theorem numPrefix_dec (src : Str) (idx : Nat) (c : Byte) (t : Str) (h : src.drop idx = c :: t)
    (h0 : c = ch '0' → ∀ d u, t = d :: u → d ∉ str "xXoObB" ∧ digit d = false) :
    numPrefix src c (idx + 1) = .ok (Base.dec.isHex, Base.dec.isOb, Base.dec.max, idx + 1) := by
  unfold numPrefix
  have h2 := (drop_cons h).2.2
  by_cases hc : c = ch '0'
  · rw [if_pos hc]
    have : ∃ d, peek src (idx + 1) = .ok d ∧ d ∉ str "xXoObB" ∧ digit d = false := by
      cases t with
      | nil => exact ⟨_, peek_nil h2, by decide⟩
      | cons d u => exact ⟨_, peek_cons h2, h0 hc d u rfl⟩
    obtain ⟨d, e, h3, h4⟩ := this
    rw [e]
    simp only [bind, Except.bind, digit_eq, h4]
    simp [str] at h3
    rw [if_neg (by tauto), if_neg (by tauto), if_neg (by tauto), if_neg (by simp)]; rfl
  · rw [if_neg hc]; rfl

theorem digs_head (B : Base) (e : Digs) (he : e ≠ []) (hd : ∀ d ∈ e, B.digit d.2 = true) (rest : Str) (c : Byte) (v : Str)
    (h : Digs.text e ++ rest = c :: v) : c ≠ ch '+' ∧ c ≠ ch '-' := by
  cases e with
  | nil => exact absurd rfl he
  | cons x e =>
    obtain ⟨f, x⟩ := x
    have hx := hd (f, x) (by simp)
    rw [digs_cons] at h
    cases f with
    | true => simp at h; rw [← h.1]; decide
    | false =>
      simp at h; rw [← h.1]
      constructor
      · rintro rfl; rw [seps_not_digit B _ (by decide)] at hx; simp at hx
      · rintro rfl; rw [seps_not_digit B _ (by decide)] at hx; simp at hx

theorem tail_of_valid (n : Num) (hv : n.Valid) (rest : Str) (he : n.Ends rest) : TailOK n.base n.int n.frac n.exp rest := by
  have hob : n.base.isOb = true → n.base = .oct ∨ n.base = .bin := by
    intro h; cases hb : n.base <;> rw [hb] at h <;> simp [Base.isOb] at h ⊢
  have hnob : n.base.isOb = false → n.base = .dec ∨ n.base = .hex := by
    intro h; cases hb : n.base <;> rw [hb] at h <;> simp [Base.isOb] at h ⊢
  refine ⟨hv.digits, fun h => (hv.ob (hob h)).2.1, ?_, ?_, he.digit, fun h => he.joined (hnob h), he.mark⟩
  · intro f hf
    refine ⟨?_, hv.frac f hf⟩
    cases hb : n.base.isOb with
    | false => rfl
    | true => have := (hv.ob (hob hb)).2.2.1; rw [hf] at this; simp at this
  · intro m s e hx
    obtain ⟨a1, a2, a3, a4⟩ := hv.exp m s e hx
    exact ⟨a1, a2, fun _ => digs_head n.base e a3 a4 rest, a4⟩

/-- The last character of a valid number is a digit. -/
theorem num_last (n : Num) (hv : n.Valid) : ∃ pre l, n.text = pre ++ [l] ∧ n.base.digit l = true := by
  have key : ∀ a ds, ds ≠ [] → (∀ d ∈ ds, n.base.digit d.2 = true) → ∃ pre l, a ++ Digs.text ds = pre ++ [l] ∧ n.base.digit l = true := by
    intro a ds h1 h2
    obtain ⟨pre, l, e, h⟩ := digs_last n.base ds h1 h2
    exact ⟨a ++ pre, l, by rw [e, List.append_assoc], h⟩
  unfold Num.text
  cases hx : n.exp with
  | some x =>
    obtain ⟨m, s, e⟩ := x
    obtain ⟨a1, a2, a3, a4⟩ := hv.exp m s e hx
    have := key (n.prefixText ++ (n.int.text ++ (fracText n.frac ++ (m :: s.toList)))) e a3 a4
    simpa [expText] using this
  | none =>
    cases hf : n.frac with
    | some f =>
      obtain ⟨⟨d, ds, rfl⟩, a2⟩ := hv.frac f hf
      have := key (n.prefixText ++ (n.int.text ++ [ch '.'])) _ (by simp) a2
      simpa [expText, fracText] using this
    | none =>
      have hi : n.int ≠ [] := by
        cases hb : n.base with
        | dec => obtain ⟨d, ds, e, _⟩ := hv.dec hb; rw [e]; simp
        | hex => exact (hv.hex hb).1 hf hx
        | oct => exact (hv.ob (Or.inl hb)).1
        | bin => exact (hv.ob (Or.inr hb)).1
      have := key n.prefixText n.int hi hv.digits
      simpa [expText, fracText] using this

theorem number_ok (src : Str) (st : St) (n : Num) (rest : Str) (hv : n.Valid) (he : n.Ends rest) (c : Byte) (t : Str)
    (h : src.drop st.idx = n.text ++ rest) (hc : n.text ++ rest = c :: t) :
    number src c st = .ok (st.token (if n.frac = none ∧ n.exp = none then .int else .real) (n.text.map Ascii.lowerB)
      st.idx (st.idx + n.text.length)) := by
  have H := tail_of_valid n hv rest he
  obtain ⟨pre, l, hlast, hl⟩ := num_last n hv
  have hfin : ∀ i, numPrefix src c (st.idx + 1) = .ok (n.base.isHex, n.base.isOb, n.base.max, i) →
      loop src n.base false false i = .ok (n.frac.isSome, n.exp.isSome, st.idx + n.text.length) →
      number src c st = .ok (st.token (if n.frac = none ∧ n.exp = none then .int else .real) (n.text.map Ascii.lowerB)
      st.idx (st.idx + n.text.length)) := by
    intro i h1 h2
    rw [hlast] at h2 h ⊢
    rw [number_eval h1 h2 h, dig9_of_digit _ _ hl, if_neg (by simp)]
    rw [if_neg]
    · congr 2
      cases n.frac <;> cases n.exp <;> simp
    · intro hx
      simp only [Bool.and_eq_true, Bool.not_eq_true'] at hx
      obtain ⟨⟨x1, x2⟩, x3⟩ := hx
      have hb : n.base = .hex := by cases hb : n.base <;> rw [hb] at x1 <;> simp [Base.isHex] at x1 ⊢
      have := (hv.hex hb).2 (by intro e; rw [e] at x2; simp at x2)
      rw [Option.isSome_eq_false_iff, Option.isNone_iff_eq_none] at x3
      exact this x3
  by_cases hb : n.base = .dec
  · obtain ⟨d, ds, hint, hz⟩ := hv.dec hb
    have hpt : n.prefixText = [] := by unfold Num.prefixText; rw [hb]
    have htext : n.text = d :: tailText ds n.frac n.exp := by
      unfold Num.text tailText; rw [hpt, hint, digs_cons]; simp
    rw [htext] at hc
    simp at hc
    obtain ⟨rfl, rfl⟩ := hc
    have h' : src.drop st.idx = d :: (tailText ds n.frac n.exp ++ rest) := by rw [h, htext]; rfl
    have H' : TailOK n.base ds n.frac n.exp rest :=
      ⟨fun x hx => H.digits x (by rw [hint]; simp [hx]), fun hB x hx => H.flags hB x (by rw [hint]; simp [hx]), H.frac, H.exp,
        H.digit, H.joined, H.mark⟩
    refine hfin (st.idx + 1) ?_ ?_
    · rw [hb]
      refine numPrefix_dec src st.idx d _ h' ?_
      rintro rfl x u hx
      cases hds : ds with
      | cons y ds' =>
        obtain ⟨f, y⟩ := y
        cases f with
        | false => exact absurd ⟨rfl, y, ds', hds⟩ hz
        | true =>
          rw [hds, tailText, digs_cons] at hx
          simp at hx; rw [← hx.1]; decide
      | nil =>
        cases hf : n.frac with
        | some f => rw [hds, hf] at hx; simp [tailText, Digs.text, fracText] at hx; rw [← hx.1]; decide
        | none =>
          cases hxp : n.exp with
          | some x =>
            obtain ⟨m, s, e⟩ := x
            rw [hds, hf, hxp] at hx; simp [tailText, Digs.text, fracText, expText] at hx
            have := (hv.exp m s e hxp).1
            rw [hb] at this
            simp [Base.mark] at this
            rw [← hx.1]
            rcases this with rfl | rfl <;> decide
          | none =>
            rw [hds, hf, hxp] at hx; simp [tailText, Digs.text, fracText, expText] at hx
            constructor
            · refine he.zero ?_ x u hx
              rw [htext, hds, hf, hxp]; rfl
            · have := he.digit x u hx
              rw [hb] at this; simpa [Base.digit] using this
    · rw [loop_tail H' _ (drop_cons h').2.2, htext]; simp; omega
  · have hp2 : n.prefixText.length = 2 ∧ n.prefixText.head? = some (ch '0') := by
      unfold Num.prefixText; cases hb' : n.base <;> cases n.upper <;> first | (exact absurd hb' hb) | decide
    have hc0 : c = ch '0' := by
      have := congrArg List.head? hc
      unfold Num.text at this
      rw [List.append_assoc, List.head?_append, hp2.2] at this
      simpa using this.symm
    have h' : src.drop st.idx = n.prefixText ++ (tailText n.int n.frac n.exp ++ rest) := by
      rw [h]; simp [Num.text, tailText]
    subst hc0
    refine hfin (st.idx + 2) (numPrefix_of src st.idx n hb _ h') ?_
    have h2 := drop_add h'
    rw [hp2.1] at h2
    rw [loop_tail H _ h2]
    have : n.text = n.prefixText ++ tailText n.int n.frac n.exp := rfl
    rw [this, List.length_append, hp2.1]
    congr 3; omega

/-- The six prefixes. -/
def prefixNum (B : Base) (upper : Bool) : Num := ⟨B, upper, [], none, none⟩

/-- A number either is rejected or is a valid number of the grammar. -/
theorem number_cases (src : Str) (st : St) (c : Byte) (t : Str) (h : src.drop st.idx = c :: t) (hc : digit c = true) :
    number src c st = .error .fail ∨ ∃ n rest, c :: t = Num.text n ++ rest ∧ n.Valid ∧ n.Ends rest := by
  by_cases hpre : ∃ B u s, B ≠ Base.dec ∧ c :: t = (prefixNum B u).prefixText ++ s
  · -- a prefix
    obtain ⟨B, u, s, hB, hs⟩ := hpre
    have hp2 : ∃ l, (prefixNum B u).prefixText = [ch '0', l] ∧ dig B.isHex (ch '9') l = false := by
      cases B <;> cases u <;> first | (exact absurd rfl hB) | exact ⟨_, rfl, by decide⟩
    obtain ⟨l, hp2, hl⟩ := hp2
    have hc0 : c = ch '0' := by rw [hp2] at hs; simp at hs; exact hs.1
    subst hc0
    have hP := numPrefix_of src st.idx (prefixNum B u) hB s (h.trans hs)
    have h2 : src.drop (st.idx + 2) = s := by
      have := drop_add (h.trans hs); rwa [hp2] at this
    rcases tail_cases (B := B) (st.idx + 2) s h2 with e | ⟨int, frac, exp, rest, e, H⟩
    · left
      unfold number
      dsimp only
      rw [hP]
      simp only [bind, Except.bind]
      have e' : numLoop src B.isHex B.isOb B.max false false (st.idx + 2) = _ := e
      rw [show (prefixNum B u).base = B from rfl, e']
    · -- evaluate the rest
      have hL := loop_tail H (st.idx + 2) (h2.trans e)
      have heval : ∀ pre l, (prefixNum B u).prefixText ++ tailText int frac exp = pre ++ [l] → dig B.isHex (ch '9') l = false →
          number src (ch '0') st = .error .fail := by
        intro pre l e1 e2
        have : st.idx + 2 + (tailText int frac exp).length = st.idx + (pre ++ [l]).length := by
          rw [← e1, List.length_append, hp2]; simp; omega
        rw [this] at hL
        rw [number_eval (B := B) hP hL (rest := rest) (by rw [h, hs, e, ← e1]; simp), e2]; rfl
      -- digits at the end
      by_cases hx : ∃ m s, exp = some (m, s, [])
      · left
        obtain ⟨m, sg, rfl⟩ := hx
        obtain ⟨x1, x2, -, -⟩ := H.exp m sg [] rfl
        have hBo := (mark_facts B m x1).2.2.2
        cases sg with
        | none =>
          refine heval ((prefixNum B u).prefixText ++ (Digs.text int ++ fracText frac)) m (by simp [tailText, expText, Digs.text]) ?_
          rw [dig9_eq B hBo]; exact (mark_facts B m x1).1
        | some g =>
          refine heval ((prefixNum B u).prefixText ++ (Digs.text int ++ (fracText frac ++ [m]))) g (by simp [tailText, expText, Digs.text]) ?_
          rw [dig9_eq B hBo]
          rcases x2 g rfl with rfl | rfl <;> exact seps_not_digit B _ (by decide)
      · by_cases hi : int = [] ∧ frac = none ∧ exp = none
        · left
          obtain ⟨rfl, rfl, rfl⟩ := hi
          exact heval [ch '0'] l (by rw [hp2]; rfl) hl
        · by_cases hh : B = .hex ∧ frac ≠ none ∧ exp = none
          · left
            obtain ⟨rfl, hf, rfl⟩ := hh
            cases frac with
            | none => exact absurd rfl hf
            | some f =>
              obtain ⟨f1, ⟨d, ds, rfl⟩, f3⟩ := H.frac f rfl
              obtain ⟨pre, l, e1, e2⟩ := digs_last .hex _ (by simp) f3
              have e3 : (prefixNum .hex u).prefixText ++ tailText int (some ((false, d) :: ds)) none =
                  ((prefixNum .hex u).prefixText ++ (Digs.text int ++ (ch '.' :: pre))) ++ [l] := by
                simp only [tailText, fracText, expText, e1]; simp
              have : st.idx + 2 + (tailText int (some ((false, d) :: ds)) none).length =
                  st.idx + (((prefixNum .hex u).prefixText ++ (Digs.text int ++ (ch '.' :: pre))) ++ [l]).length := by
                rw [← e3, List.length_append, hp2]; simp; omega
              rw [this] at hL
              rw [number_eval (B := .hex) hP hL (rest := rest) (by rw [h, hs, e, ← e3]; simp)]
              split_ifs <;> first | rfl | (exfalso; simp_all [Base.isHex])
          · right
            refine ⟨⟨B, u, int, frac, exp⟩, rest, ?_, ?_, ?_⟩
            · rw [hs, e]; simp [Num.text, tailText, Num.prefixText, prefixNum]
            · refine ⟨H.digits, fun hb => absurd hb hB, ?_, ?_, fun f hf => (H.frac f hf).2, ?_⟩
              · intro hb
                have hob : B.isOb = true := by rcases hb with hb | hb <;> (dsimp only at hb; subst hb; rfl)
                have hf : frac = none := by
                  cases frac with
                  | none => rfl
                  | some f => have := (H.frac f rfl).1; rw [hob] at this; simp at this
                have hxp : exp = none := by
                  cases exp with
                  | none => rfl
                  | some x =>
                    obtain ⟨m, sg, es⟩ := x
                    have := (mark_facts B m (H.exp m sg es rfl).1).2.2.2
                    rw [hob] at this; simp at this
                exact ⟨fun h0 => hi ⟨h0, hf, hxp⟩, H.flags hob, hf, hxp⟩
              · intro hb
                exact ⟨fun h1 h2 h3 => hi ⟨h3, h1, h2⟩, fun h1 h2 => hh ⟨hb, h1, h2⟩⟩
              · intro m sg e hxp
                obtain ⟨x1, x2, x3, x4⟩ := H.exp m sg e hxp
                exact ⟨x1, x2, fun h0 => hx ⟨m, sg, by rw [← h0]; exact hxp⟩, x4⟩
            · refine ⟨H.digit, fun hb => H.joined ?_, H.mark, ?_⟩
              · rcases hb with hb | hb <;> (dsimp only at hb; subst hb; rfl)
              · intro htx
                have := congrArg List.length htx
                simp only [Num.text, List.length_append] at this
                have hp3 : (Num.prefixText ⟨B, u, int, frac, exp⟩).length = 2 := by
                  have : Num.prefixText ⟨B, u, int, frac, exp⟩ = (prefixNum B u).prefixText := rfl
                  rw [this, hp2]; rfl
                simp at this; omega
  · -- a decimal number
    by_cases hz : c = ch '0' ∧ ∃ d v, t = d :: v ∧ digit d = true
    · left
      obtain ⟨rfl, d, v, rfl, hd⟩ := hz
      have hP : numPrefix src (ch '0') (st.idx + 1) = .error .fail := by
        unfold numPrefix
        rw [if_pos rfl, peek_cons (drop_cons h).2.2]
        simp only [bind, Except.bind, digit_eq, hd, if_true]
        have key := byte_all (fun d => !digit d || (d != ch 'x' && d != ch 'X' && d != ch 'o' && d != ch 'O' && d != ch 'b' && d != ch 'B'))
          (by decide +kernel) d
        simp [hd] at key
        rw [if_neg (by tauto), if_neg (by tauto), if_neg (by tauto)]
      unfold number
      dsimp only
      rw [hP]; rfl
    have h0 : c = ch '0' → ∀ d u, t = d :: u → d ∉ str "xXoObB" ∧ digit d = false := by
      rintro rfl d u rfl
      constructor
      · intro hd
        apply hpre
        simp [str] at hd
        rcases hd with rfl | rfl | rfl | rfl | rfl | rfl
        · exact ⟨.hex, false, u, by simp, rfl⟩
        · exact ⟨.hex, true, u, by simp, rfl⟩
        · exact ⟨.oct, false, u, by simp, rfl⟩
        · exact ⟨.oct, true, u, by simp, rfl⟩
        · exact ⟨.bin, false, u, by simp, rfl⟩
        · exact ⟨.bin, true, u, by simp, rfl⟩
      · cases hd : digit d with
        | false => rfl
        | true => exact absurd ⟨rfl, d, u, rfl, hd⟩ hz
    have hP := numPrefix_dec src st.idx c t h h0
    have h2 := (drop_cons h).2.2
    rcases tail_cases (B := .dec) (st.idx + 1) t h2 with e | ⟨int, frac, exp, rest, e, H⟩
    · left
      unfold number
      dsimp only
      rw [hP]
      simp only [bind, Except.bind]
      have e' : numLoop src Base.dec.isHex Base.dec.isOb Base.dec.max false false (st.idx + 1) = _ := e
      rw [e']
    · have hL := loop_tail H (st.idx + 1) (h2.trans e)
      have heval : ∀ pre l, c :: tailText int frac exp = pre ++ [l] → dig Base.dec.isHex (ch '9') l = false →
          number src c st = .error .fail := by
        intro pre l e1 e2
        have : st.idx + 1 + (tailText int frac exp).length = st.idx + (pre ++ [l]).length := by
          rw [← e1]; simp; omega
        rw [this] at hL
        rw [number_eval (B := .dec) hP hL (rest := rest) (by rw [h, e, ← e1]; simp), e2]; rfl
      by_cases hx : ∃ m s, exp = some (m, s, [])
      · left
        obtain ⟨m, sg, rfl⟩ := hx
        obtain ⟨x1, x2, -, -⟩ := H.exp m sg [] rfl
        cases sg with
        | none =>
          refine heval (c :: (Digs.text int ++ fracText frac)) m (by simp [tailText, expText, Digs.text]) ?_
          rw [dig9_eq .dec rfl]; exact (mark_facts .dec m x1).1
        | some g =>
          refine heval (c :: (Digs.text int ++ (fracText frac ++ [m]))) g (by simp [tailText, expText, Digs.text]) ?_
          rw [dig9_eq .dec rfl]
          rcases x2 g rfl with rfl | rfl <;> exact seps_not_digit .dec _ (by decide)
      · right
        have htext : Num.text ⟨.dec, false, (false, c) :: int, frac, exp⟩ = c :: tailText int frac exp := by
          simp [Num.text, Num.prefixText, digs_cons, tailText]
        refine ⟨⟨.dec, false, (false, c) :: int, frac, exp⟩, rest, by rw [htext, e]; rfl, ?_, ?_⟩
        · refine ⟨?_, ?_, by simp, by simp, fun f hf => (H.frac f hf).2, ?_⟩
          · intro d hd; simp at hd; rcases hd with rfl | hd
            · exact hc
            · exact H.digits d hd
          · intro _
            refine ⟨c, int, rfl, ?_⟩
            rintro ⟨rfl, d, es, rfl⟩
            have hd := H.digits (false, d) (by simp)
            apply hz
            refine ⟨rfl, d, Digs.text es ++ (fracText frac ++ (expText exp ++ rest)), ?_, hd⟩
            rw [e]; simp [tailText, digs_cons]
          · intro m sg e hxp
            obtain ⟨x1, x2, x3, x4⟩ := H.exp m sg e hxp
            exact ⟨x1, x2, fun h0 => hx ⟨m, sg, by rw [← h0]; exact hxp⟩, x4⟩
        · refine ⟨H.digit, fun _ => H.joined rfl, H.mark, ?_⟩
          intro htx d u hr
          rw [htext] at htx
          simp at htx
          refine (h0 htx.1 d u ?_).1
          rw [e, htx.2, hr]; rfl

end Verif.Lexer
