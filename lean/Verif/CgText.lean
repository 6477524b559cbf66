/-!
# C92: the characters of an expression, and the tokens C++ makes of them

`codegen.fu` writes C++ as one long string.  A C++ compiler reads the string back by *maximal
munch*: at every point it takes the longest token the characters allow.  This file is the
specification of that reading for the punctuation an expression is made of, and the lemma that
says when a sequence of pieces written one after the other is read back as those very pieces.

Specification only: nothing here models code of the repository.  The rule is [lex.pptoken]/3 of the
C++ standard, the list of operators is [lex.operators] without the digraphs, the preprocessor
tokens, the spaceship, the pointer-to-member and the ellipsis operators, which the emitter never
writes.  Names and numbers are single symbols: what matters about them is that two of them next to
each other would be read as one.
-/

namespace Verif.CgText

/-- A punctuation character. -/
inductive Ch where
  | lpar | rpar | lbrk | rbrk | lbrace | rbrace | semi | comma | quest | colon
  | bang | star | amp | dot | eq | plus | minus | tilde | lt | gt | pipe | caret | slash | percent
deriving DecidableEq, Repr

/-- A punctuation token. -/
inductive Op where
  | lpar | rpar | lbrk | rbrk | lbrace | rbrace | semi | comma | quest | colon
  | bang | star | amp | dot | asg | plus | minus | tilde | lt | gt | pipe | caret | slash | percent
  | scope | inc | dec | eqeq | ne | le | ge | andand | oror | shl | shr | arrow
  | addEq | subEq | mulEq | divEq | modEq | andEq | orEq | xorEq | shlEq | shrEq
deriving DecidableEq, Repr

/-- How a token is spelled. -/
def spell : Op → List Ch
  | .lpar => [.lpar] | .rpar => [.rpar] | .lbrk => [.lbrk] | .rbrk => [.rbrk]
  | .lbrace => [.lbrace] | .rbrace => [.rbrace] | .semi => [.semi] | .comma => [.comma]
  | .quest => [.quest] | .colon => [.colon] | .bang => [.bang] | .star => [.star]
  | .amp => [.amp] | .dot => [.dot] | .asg => [.eq] | .plus => [.plus] | .minus => [.minus]
  | .tilde => [.tilde] | .lt => [.lt] | .gt => [.gt] | .pipe => [.pipe] | .caret => [.caret]
  | .slash => [.slash] | .percent => [.percent]
  | .scope => [.colon, .colon] | .inc => [.plus, .plus] | .dec => [.minus, .minus]
  | .eqeq => [.eq, .eq] | .ne => [.bang, .eq] | .le => [.lt, .eq] | .ge => [.gt, .eq]
  | .andand => [.amp, .amp] | .oror => [.pipe, .pipe] | .shl => [.lt, .lt] | .shr => [.gt, .gt]
  | .arrow => [.minus, .gt]
  | .addEq => [.plus, .eq] | .subEq => [.minus, .eq] | .mulEq => [.star, .eq]
  | .divEq => [.slash, .eq] | .modEq => [.percent, .eq] | .andEq => [.amp, .eq]
  | .orEq => [.pipe, .eq] | .xorEq => [.caret, .eq]
  | .shlEq => [.lt, .lt, .eq] | .shrEq => [.gt, .gt, .eq]

/-- All tokens, the longest first. -/
def allOps : List Op :=
  [.shlEq, .shrEq,
   .scope, .inc, .dec, .eqeq, .ne, .le, .ge, .andand, .oror, .shl, .shr, .arrow,
   .addEq, .subEq, .mulEq, .divEq, .modEq, .andEq, .orEq, .xorEq,
   .lpar, .rpar, .lbrk, .rbrk, .lbrace, .rbrace, .semi, .comma, .quest, .colon,
   .bang, .star, .amp, .dot, .asg, .plus, .minus, .tilde, .lt, .gt, .pipe, .caret, .slash, .percent]

/-- A type a value can have (the ones the model has). -/
inductive Ty where
  | bool
  /-- an unsigned integer of 8 bits: C++ computes with it as an `int`. -/
  | u8
  /-- an unsigned integer of 32 bits. -/
  | u32
  /-- a struct (`false`) or an array (`true`). -/
  | obj (vec : Bool)
deriving DecidableEq, Repr

/-- A name or a number in the text. -/
inductive Word where
  /-- a variable of the program. -/
  | var (x : Nat)
  /-- a temporary the emitter has invented: `_0`, `_1`, … -/
  | tmp (i : Nat)
  | fn (f : Nat)
  | fld (f : Nat)
  /-- a type, used as in `T(x)`. -/
  | ty (t : Ty)
  /-- `static_cast<T&&>`. -/
  | mv (t : Ty)
  | num (k : Nat)
  | tru
  | fals
deriving DecidableEq, Repr

/-- A symbol of the text. -/
inductive Sym where
  | sp
  | ch (c : Ch)
  | w (a : Word)
deriving DecidableEq, Repr

/-- A token. -/
inductive Tok where
  | op (o : Op)
  | w (a : Word)
deriving DecidableEq, Repr

/-- The punctuation a text starts with. -/
def run : List Sym → List Ch
  | .ch c :: r => c :: run r
  | _ => []

/-- The longest token some characters start with. -/
def munch (cs : List Ch) : Option Op := allOps.find? fun o => (spell o).isPrefixOf cs

/-- Does the text start with a name or a number? -/
def startsWord : List Sym → Bool
  | .w _ :: _ => true
  | _ => false

/-- The tokens of a text; the number says how many symbols are still part of the last token.
`none`: two names run into each other. -/
def lexFrom : Nat → List Sym → Option (List Tok)
  | _, [] => some []
  | k + 1, _ :: r => lexFrom k r
  | 0, .sp :: r => lexFrom 0 r
  | 0, .w a :: r => if startsWord r then none else (lexFrom 0 r).map (.w a :: ·)
  | 0, .ch c :: r =>
      match munch (c :: run r) with
      | none => none
      | some o => (lexFrom ((spell o).length - 1) r).map (.op o :: ·)

/-- The tokens C++ reads in a text. -/
def lex (t : List Sym) : Option (List Tok) := lexFrom 0 t

/-! ## Writing pieces one after the other -/

/-- A piece of output: a space, a token meant as a token, a name. -/
inductive Piece where
  | sp
  | op (o : Op)
  | w (a : Word)
deriving DecidableEq, Repr

/-- The symbols of a piece. -/
def Piece.syms : Piece → List Sym
  | .sp => [.sp]
  | .op o => (spell o).map .ch
  | .w a => [.w a]

/-- The text of the pieces. -/
def text (ps : List Piece) : List Sym := ps.flatMap Piece.syms

/-- The tokens the pieces are meant to be. -/
def toks : List Piece → List Tok
  | [] => []
  | .sp :: r => toks r
  | .op o :: r => .op o :: toks r
  | .w a :: r => .w a :: toks r

/-- No token is spelled like this one with one more character. -/
def Fits (o : Op) (c : Ch) : Bool := allOps.all fun p => !((spell o ++ [c]).isPrefixOf (spell p))

/-- The second piece may follow the first. -/
def Next : Piece → Piece → Bool
  | .w _, .w _ => false
  | .op o, .op p => match spell p with | [] => true | c :: _ => Fits o c
  | _, _ => true

/-- Every piece may follow the one before it. -/
def Fine : List Piece → Bool
  | [] => true
  | [_] => true
  | a :: b :: r => Next a b && Fine (b :: r)

theorem spell_ne (o : Op) : spell o ≠ [] := by cases o <;> simp [spell]

theorem munch_end (o : Op) : munch (spell o) = some o := by cases o <;> rfl

theorem munch_next (o : Op) (c : Ch) (h : Fits o c = true) (r : List Ch) :
    munch (spell o ++ c :: r) = some o := by
  cases o <;> cases c <;> first | rfl | exact absurd h (by decide)

theorem run_chars (cs : List Ch) (r : List Sym) : run (cs.map .ch ++ r) = cs ++ run r := by
  induction cs with
  | nil => rfl
  | cons c cs ih => simp [run, ih]

theorem lexFrom_skip (cs : List Ch) (r : List Sym) :
    lexFrom cs.length (cs.map .ch ++ r) = lexFrom 0 r := by
  induction cs with
  | nil => rfl
  | cons c cs ih => simp [lexFrom, ih]

theorem text_cons (p : Piece) (ps : List Piece) : text (p :: ps) = p.syms ++ text ps := by
  simp [text]

theorem text_append (a b : List Piece) : text (a ++ b) = text a ++ text b := by
  simp [text]

theorem toks_append (a b : List Piece) : toks (a ++ b) = toks a ++ toks b := by
  induction a with
  | nil => rfl
  | cons p a ih => cases p <;> simp [toks, ih]

theorem run_text (ps : List Piece) :
    run (text ps) = [] ∨ ∃ p r, ps = .op p :: r ∧ run (text ps) = spell p ++ run (text r) := by
  cases ps with
  | nil => exact Or.inl rfl
  | cons p r =>
      cases p with
      | sp => exact Or.inl rfl
      | w a => exact Or.inl rfl
      | op o => exact Or.inr ⟨o, r, rfl, by rw [text_cons]; exact run_chars _ _⟩

/-- **Pieces that fit are read back as they were meant.** -/
theorem lex_pieces (ps : List Piece) (h : Fine ps = true) : lex (text ps) = some (toks ps) := by
  unfold lex
  induction ps with
  | nil => rfl
  | cons p r ih =>
      have hr : Fine r = true := by
        cases r with
        | nil => rfl
        | cons q r => simp only [Fine, Bool.and_eq_true] at h; exact h.2
      have ih := ih hr
      rw [text_cons]
      cases p with
      | sp => simpa [Piece.syms, lexFrom, toks] using ih
      | w a =>
          have hs : startsWord (text r) = false := by
            cases r with
            | nil => rfl
            | cons q r =>
                simp only [Fine, Bool.and_eq_true] at h
                cases q with
                | sp => rfl
                | w b => simp [Next] at h
                | op o =>
                    rw [text_cons]
                    have := spell_ne o
                    cases hsp : spell o with
                    | nil => exact absurd hsp this
                    | cons c cs => simp [Piece.syms, hsp, startsWord]
          simp [Piece.syms, lexFrom, toks, hs, ih]
      | op o =>
          have hm : munch (spell o ++ run (text r)) = some o := by
            rcases run_text r with h0 | ⟨q, r', hq, h1⟩
            · rw [h0, List.append_nil]; exact munch_end o
            · subst hq
              rw [h1]
              simp only [Fine, Bool.and_eq_true] at h
              cases hsp : spell q with
              | nil => exact absurd hsp (spell_ne q)
              | cons c cs =>
                  have hf : Fits o c = true := by simpa [Next, hsp] using h.1
                  exact munch_next o c hf _
          cases hsp : spell o with
          | nil => exact absurd hsp (spell_ne o)
          | cons c cs =>
              have hl : (spell o).length - 1 = cs.length := by rw [hsp]; rfl
              simp only [Piece.syms, hsp, List.map_cons, List.cons_append, lexFrom]
              rw [run_chars]
              rw [hsp, List.cons_append] at hm
              rw [hm]
              dsimp only
              rw [hl, lexFrom_skip, ih]
              rfl

/-! ## Where two texts meet -/

theorem fine_append {a b : List Piece} (ha : Fine a = true) (hb : Fine b = true)
    (hm : ∀ p q, a.getLast? = some p → b.head? = some q → Next p q = true) :
    Fine (a ++ b) = true := by
  induction a with
  | nil => exact hb
  | cons p a ih =>
      cases a with
      | nil =>
          cases b with
          | nil => rfl
          | cons q b =>
              simp only [List.cons_append, List.nil_append, Fine, Bool.and_eq_true]
              exact ⟨hm p q rfl rfl, hb⟩
      | cons p' a =>
          simp only [Fine, Bool.and_eq_true] at ha
          simp only [List.cons_append, Fine, Bool.and_eq_true]
          exact ⟨ha.1, ih ha.2 (fun x y hx hy => hm x y (by simpa using hx) hy)⟩

end Verif.CgText
