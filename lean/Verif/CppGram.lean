import Verif.CgText

/-!
# C92: how C++ groups the tokens of an expression

Specification only: the expression grammar of C++ ([expr]) restricted to names, numbers, calls,
field access, the unary, binary, conditional, assignment and comma operators, as a recursive
descent reader.  It takes tokens and gives the tree and the tokens that are left; `none` where the
tokens are not an expression.  The first argument only bounds the recursion.

* *primary*: a name, a number, `( expression )`;
* *postfix*: a primary followed by any number of `.f`, `(…)`, `++`, `--`;
* *unary*: any number of `! * & + - ~ ++ --` and then a postfix expression;
* *binary*: the levels `* / %`, `+ -`, `<< >>`, `< <= > >=`, `== !=`, `&`, `^`, `|`, `&&`, `||`,
  all of them left associative;
* *assignment*: `binary`, `binary ? expression : assignment`, `binary = assignment`;
* *expression*: assignments separated by commas.
-/

namespace Verif.CppGram

open Verif.CgText

/-- An expression of C++, the parentheses gone. -/
inductive C where
  | w (a : Word)
  | fld (e : C) (f : Word)
  | call (f : C) (args : List C)
  | un (o : Op) (e : C)
  | post (o : Op) (e : C)
  | bin (o : Op) (a b : C)
  | asg (o : Op) (a b : C)
  | cond (c a b : C)
  | comma (a b : C)
deriving Repr

/-- The unary operators. -/
def isPrefix : Op → Bool
  | .bang | .star | .amp | .plus | .minus | .tilde | .inc | .dec => true
  | _ => false

/-- The level of a binary operator, higher binds tighter. -/
def level : Op → Option Nat
  | .oror => some 1
  | .andand => some 2
  | .pipe => some 3
  | .caret => some 4
  | .amp => some 5
  | .eqeq | .ne => some 6
  | .lt | .le | .gt | .ge => some 7
  | .shl | .shr => some 8
  | .plus | .minus => some 9
  | .star | .slash | .percent => some 10
  | _ => none

/-- The assignment operators. -/
def isAssign : Op → Bool
  | .asg | .addEq | .subEq | .mulEq | .divEq | .modEq | .andEq | .orEq | .xorEq | .shlEq | .shrEq => true
  | _ => false

/-- The token has to come next. -/
def expect (o : Op) : List Tok → Option (List Tok)
  | .op p :: r => if p = o then some r else none
  | _ => none

mutual
/-- *expression* -/
def expr : Nat → List Tok → Option (C × List Tok)
  | 0, _ => none
  | n + 1, ts => (assign n ts).bind fun x => commas n x.1 x.2
/-- the rest of an *expression* -/
def commas : Nat → C → List Tok → Option (C × List Tok)
  | 0, _, _ => none
  | n + 1, a, .op .comma :: r => (assign n r).bind fun x => commas n (.comma a x.1) x.2
  | _ + 1, a, ts => some (a, ts)
/-- *assignment* -/
def assign : Nat → List Tok → Option (C × List Tok)
  | 0, _ => none
  | n + 1, ts => (binary n 0 ts).bind fun x => afterBinary n x.1 x.2
/-- what follows the first operand of an *assignment* -/
def afterBinary : Nat → C → List Tok → Option (C × List Tok)
  | 0, _, _ => none
  | n + 1, l, .op o :: r =>
      if o = .quest then
        (expr n r).bind fun x => (expect .colon x.2).bind fun r' =>
          (assign n r').bind fun y => some (.cond l x.1 y.1, y.2)
      else if isAssign o then
        (assign n r).bind fun y => some (.asg o l y.1, y.2)
      else some (l, .op o :: r)
  | _ + 1, l, ts => some (l, ts)
/-- *binary*, of operators that bind at least as tightly as the level -/
def binary : Nat → Nat → List Tok → Option (C × List Tok)
  | 0, _, _ => none
  | n + 1, p, ts => (unary n ts).bind fun x => operators n p x.1 x.2
/-- the operators that follow the first operand -/
def operators : Nat → Nat → C → List Tok → Option (C × List Tok)
  | 0, _, _, _ => none
  | n + 1, p, l, .op o :: r =>
      match level o with
      | none => some (l, .op o :: r)
      | some q =>
          if p ≤ q then (binary n (q + 1) r).bind fun y => operators n p (.bin o l y.1) y.2
          else some (l, .op o :: r)
  | _ + 1, _, l, ts => some (l, ts)
/-- *unary* -/
def unary : Nat → List Tok → Option (C × List Tok)
  | 0, _ => none
  | n + 1, .op o :: r =>
      if isPrefix o then (unary n r).bind fun x => some (.un o x.1, x.2)
      else if o = .lpar then
        (expr n r).bind fun x => (expect .rpar x.2).bind fun r' => suffixes n x.1 r'
      else none
  | n + 1, .w a :: r => suffixes n (.w a) r
  | _ + 1, [] => none
/-- what follows a *primary* -/
def suffixes : Nat → C → List Tok → Option (C × List Tok)
  | 0, _, _ => none
  | n + 1, a, .op o :: r =>
      if o = .dot then
        match r with
        | .w f :: r' => suffixes n (.fld a f) r'
        | _ => none
      else if o = .lpar then
        (arguments n r).bind fun x => suffixes n (.call a x.1) x.2
      else if o = .inc ∨ o = .dec then suffixes n (.post o a) r
      else some (a, .op o :: r)
  | _ + 1, a, ts => some (a, ts)
/-- the arguments of a call, up to and with the closing parenthesis -/
def arguments : Nat → List Tok → Option (List C × List Tok)
  | 0, _ => none
  | _ + 1, .op .rpar :: r => some ([], r)
  | n + 1, ts => (assign n ts).bind fun x => (moreArguments n x.2).bind fun y => some (x.1 :: y.1, y.2)
/-- the arguments after the first -/
def moreArguments : Nat → List Tok → Option (List C × List Tok)
  | 0, _ => none
  | n + 1, .op o :: r =>
      if o = .rpar then some ([], r)
      else if o = .comma then
        (assign n r).bind fun x => (moreArguments n x.2).bind fun y => some (x.1 :: y.1, y.2)
      else none
  | _ + 1, _ => none
end

/-- The text is an expression of C++, and this is how it is grouped: with any recursion bound from
some point on, the reader takes all the tokens of the text and gives the tree. -/
def ReadsAs (t : List Sym) (c : C) : Prop :=
  ∃ ts, lex t = some ts ∧ ∃ k, ∀ n, k ≤ n → expr n ts = some (c, [])

/-! ## Derived rules -/

/-- From some bound on, the result is this. -/
def Gets {α : Type} (f : Nat → Option α) (r : α) : Prop := ∃ k, ∀ n, k ≤ n → f n = some r

theorem Gets.unique {α : Type} {f : Nat → Option α} {a b : α} (h : Gets f a) (h' : Gets f b) : a = b := by
  obtain ⟨k, h⟩ := h
  obtain ⟨k', h'⟩ := h'
  have h1 := h (max k k') (Nat.le_max_left _ _)
  have h2 := h' (max k k') (Nat.le_max_right _ _)
  rw [h1] at h2
  exact Option.some.inj h2

/-- A text is read in one way. -/
theorem ReadsAs.unique {t : List Sym} {c d : C} (h : ReadsAs t c) (h' : ReadsAs t d) : c = d := by
  obtain ⟨ts, hl, h⟩ := h
  obtain ⟨ts', hl', h'⟩ := h'
  rw [hl] at hl'
  cases hl'
  exact congrArg Prod.fst (Gets.unique h h')

theorem gets_step {α : Type} {f : Nat → Option α} {r : α} (g : Nat → Option α)
    (hf : ∀ n, f (n + 1) = g n) (hg : Gets g r) : Gets f r := by
  obtain ⟨k, h⟩ := hg
  refine ⟨k + 1, fun n hn => ?_⟩
  obtain ⟨m, rfl⟩ : ∃ m, n = m + 1 := ⟨n - 1, by omega⟩
  rw [hf]
  exact h m (by omega)

theorem gets_bind {α β : Type} {f : Nat → Option α} {g : α → Nat → Option β} {x : α} {r : β}
    (hf : Gets f x) (hg : Gets (g x) r) : Gets (fun n => (f n).bind fun y => g y n) r := by
  obtain ⟨k, h⟩ := hf
  obtain ⟨k', h'⟩ := hg
  refine ⟨max k k', fun n hn => ?_⟩
  dsimp only
  rw [h n (by omega)]
  exact h' n (by omega)

theorem gets_pure {α : Type} {r : α} : Gets (fun _ => some r) r := ⟨0, fun _ _ => rfl⟩

/-- What may follow a complete *postfix* expression. -/
def stopSuffix : List Tok → Bool
  | .op o :: _ => !(o = .dot || o = .lpar || o = .inc || o = .dec)
  | _ => true

/-- What may follow a complete *binary* expression of level `p`. -/
def stopBinary (p : Nat) : List Tok → Bool
  | .op o :: r => stopSuffix (.op o :: r) && (match level o with | none => true | some q => decide (q < p))
  | _ => true

/-- What may follow a complete *assignment*. -/
def stopAssign : List Tok → Bool
  | .op o :: r => stopBinary 0 (.op o :: r) && !(o = .quest || isAssign o)
  | _ => true

theorem stopAssign_binary {ts : List Tok} (h : stopAssign ts = true) : stopBinary 0 ts = true := by
  cases ts with
  | nil => rfl
  | cons t r =>
      cases t with
      | w a => rfl
      | op o => simp only [stopAssign, Bool.and_eq_true] at h; exact h.1

theorem stopBinary_suffix {p : Nat} {ts : List Tok} (h : stopBinary p ts = true) : stopSuffix ts = true := by
  cases ts with
  | nil => rfl
  | cons t r =>
      cases t with
      | w a => rfl
      | op o => simp only [stopBinary, Bool.and_eq_true] at h; exact h.1

theorem stopBinary_mono {p q : Nat} (hpq : p ≤ q) {ts : List Tok} (h : stopBinary p ts = true) :
    stopBinary q ts = true := by
  cases ts with
  | nil => rfl
  | cons t r =>
      cases t with
      | w a => rfl
      | op o =>
          simp only [stopBinary, Bool.and_eq_true] at h ⊢
          refine ⟨h.1, ?_⟩
          cases hl : level o with
          | none => rfl
          | some l =>
              have h2 := h.2
              rw [hl] at h2
              simp only [decide_eq_true_eq] at h2 ⊢
              omega

theorem suffixes_stop (a : C) (ts : List Tok) (h : stopSuffix ts = true) :
    Gets (fun n => suffixes n a ts) (a, ts) := by
  refine gets_step (fun _ => some (a, ts)) (fun n => ?_) gets_pure
  cases ts with
  | nil => rfl
  | cons t r =>
      cases t with
      | w b => rfl
      | op o =>
          simp only [stopSuffix, Bool.not_eq_true', Bool.or_eq_false_iff, decide_eq_false_iff_not] at h
          obtain ⟨⟨⟨h1, h2⟩, h3⟩, h4⟩ := h
          simp only [suffixes]
          rw [if_neg h1, if_neg h2, if_neg (by intro h; cases h with | inl h => exact h3 h | inr h => exact h4 h)]

theorem suffixes_dot (a : C) (f : Word) (ts : List Tok) {r : C × List Tok}
    (h : Gets (fun n => suffixes n (.fld a f) ts) r) :
    Gets (fun n => suffixes n a (.op .dot :: .w f :: ts)) r :=
  gets_step _ (fun n => by simp only [suffixes]; rw [if_pos trivial]) h

theorem suffixes_call (a : C) (ts : List Tok) {x : List C × List Tok} {r : C × List Tok}
    (ha : Gets (fun n => arguments n ts) x)
    (h : Gets (fun n => suffixes n (.call a x.1) x.2) r) :
    Gets (fun n => suffixes n a (.op .lpar :: ts)) r :=
  gets_step (fun n => (arguments n ts).bind fun x => suffixes n (.call a x.1) x.2)
    (fun n => by simp only [suffixes]; rw [if_neg (by decide), if_pos trivial])
    (gets_bind (g := fun x n => suffixes n (.call a x.1) x.2) ha h)

theorem suffixes_post (a : C) (o : Op) (ho : o = .inc ∨ o = .dec) (ts : List Tok) {r : C × List Tok}
    (h : Gets (fun n => suffixes n (.post o a) ts) r) :
    Gets (fun n => suffixes n a (.op o :: ts)) r :=
  gets_step _ (fun n => by
    simp only [suffixes]
    rw [if_neg (by rintro rfl; cases ho <;> contradiction), if_neg (by rintro rfl; cases ho <;> contradiction),
      if_pos ho]) h

theorem unary_word (a : Word) (ts : List Tok) {r : C × List Tok}
    (h : Gets (fun n => suffixes n (.w a) ts) r) : Gets (fun n => unary n (.w a :: ts)) r :=
  gets_step _ (fun n => by simp only [unary]) h

theorem unary_paren (e : C) (ts rest : List Tok) {r : C × List Tok}
    (he : Gets (fun n => expr n ts) (e, .op .rpar :: rest))
    (h : Gets (fun n => suffixes n e rest) r) : Gets (fun n => unary n (.op .lpar :: ts)) r :=
  gets_step (fun n => (expr n ts).bind fun x => (expect .rpar x.2).bind fun r' => suffixes n x.1 r')
    (fun n => by simp only [unary]; rw [if_neg (by decide), if_pos trivial])
    (gets_bind (x := (e, Tok.op .rpar :: rest))
      (g := fun (x : C × List Tok) n => (expect .rpar x.2).bind fun r' => suffixes n x.1 r') he (by
        simpa [expect] using h))

theorem unary_prefix (o : Op) (ho : isPrefix o = true) (ts : List Tok) {e : C} {rest : List Tok}
    (h : Gets (fun n => unary n ts) (e, rest)) :
    Gets (fun n => unary n (.op o :: ts)) (.un o e, rest) :=
  gets_step (fun n => (unary n ts).bind fun x => some (.un o x.1, x.2))
    (fun n => by simp only [unary]; rw [if_pos ho])
    (gets_bind (g := fun (x : C × List Tok) _ => some (C.un o x.1, x.2)) h gets_pure)

theorem operators_stop (p : Nat) (a : C) (ts : List Tok) (h : stopBinary p ts = true) :
    Gets (fun n => operators n p a ts) (a, ts) := by
  refine gets_step (fun _ => some (a, ts)) (fun n => ?_) gets_pure
  cases ts with
  | nil => rfl
  | cons t r =>
      cases t with
      | w b => rfl
      | op o =>
          simp only [stopBinary, Bool.and_eq_true] at h
          simp only [operators]
          cases hl : level o with
          | none => rfl
          | some q =>
              have h2 := h.2
              rw [hl] at h2
              simp only [decide_eq_true_eq] at h2
              dsimp only
              rw [if_neg (by omega)]

theorem operators_op (p q : Nat) (a : C) (o : Op) (ho : level o = some q) (hp : p ≤ q) (ts : List Tok)
    {x : C × List Tok} {r : C × List Tok}
    (hx : Gets (fun n => binary n (q + 1) ts) x)
    (h : Gets (fun n => operators n p (.bin o a x.1) x.2) r) :
    Gets (fun n => operators n p a (.op o :: ts)) r :=
  gets_step (fun n => (binary n (q + 1) ts).bind fun y => operators n p (.bin o a y.1) y.2)
    (fun n => by simp only [operators]; rw [ho]; dsimp only; rw [if_pos hp])
    (gets_bind (g := fun y n => operators n p (.bin o a y.1) y.2) hx h)

theorem binary_of (p : Nat) (ts : List Tok) {x r : C × List Tok}
    (hx : Gets (fun n => unary n ts) x) (h : Gets (fun n => operators n p x.1 x.2) r) :
    Gets (fun n => binary n p ts) r :=
  gets_step (fun n => (unary n ts).bind fun x => operators n p x.1 x.2)
    (fun n => by simp only [binary]) (gets_bind (g := fun x n => operators n p x.1 x.2) hx h)

theorem binary_unary (p : Nat) (ts : List Tok) {c : C} {rest : List Tok}
    (h : Gets (fun n => unary n ts) (c, rest)) (hs : stopBinary p rest = true) :
    Gets (fun n => binary n p ts) (c, rest) :=
  binary_of p ts h (operators_stop p c rest hs)

theorem assign_of (ts : List Tok) {x r : C × List Tok}
    (hx : Gets (fun n => binary n 0 ts) x) (h : Gets (fun n => afterBinary n x.1 x.2) r) :
    Gets (fun n => assign n ts) r :=
  gets_step (fun n => (binary n 0 ts).bind fun x => afterBinary n x.1 x.2)
    (fun n => by simp only [assign]) (gets_bind (g := fun x n => afterBinary n x.1 x.2) hx h)

theorem afterBinary_stop (a : C) (ts : List Tok) (h : stopAssign ts = true) :
    Gets (fun n => afterBinary n a ts) (a, ts) := by
  refine gets_step (fun _ => some (a, ts)) (fun n => ?_) gets_pure
  cases ts with
  | nil => rfl
  | cons t r =>
      cases t with
      | w b => rfl
      | op o =>
          simp only [stopAssign, Bool.and_eq_true, Bool.not_eq_true', Bool.or_eq_false_iff,
            decide_eq_false_iff_not] at h
          simp only [afterBinary]
          rw [if_neg h.2.1, if_neg (by rw [h.2.2]; decide)]

theorem afterBinary_cond (l : C) (ts : List Tok) {a b : C} {r1 rest : List Tok}
    (ha : Gets (fun n => expr n ts) (a, .op .colon :: r1))
    (hb : Gets (fun n => assign n r1) (b, rest)) :
    Gets (fun n => afterBinary n l (.op .quest :: ts)) (.cond l a b, rest) :=
  gets_step (fun n => (expr n ts).bind fun x => (expect .colon x.2).bind fun r' =>
          (assign n r').bind fun y => some (.cond l x.1 y.1, y.2))
    (fun n => by simp only [afterBinary]; rw [if_pos trivial])
    (gets_bind (x := (a, Tok.op .colon :: r1)) (g := fun (x : C × List Tok) n => (expect .colon x.2).bind fun r' =>
          (assign n r').bind fun y => some (C.cond l x.1 y.1, y.2)) ha (by
      have h := gets_bind (f := fun n => assign n r1) (g := fun (y : C × List Tok) _ => some (C.cond l a y.1, y.2)) hb gets_pure
      simpa [expect] using h))

theorem afterBinary_assign (l : C) (o : Op) (ho : isAssign o = true) (ts : List Tok) {b : C} {rest : List Tok}
    (hb : Gets (fun n => assign n ts) (b, rest)) :
    Gets (fun n => afterBinary n l (.op o :: ts)) (.asg o l b, rest) :=
  gets_step (fun n => (assign n ts).bind fun y => some (.asg o l y.1, y.2))
    (fun n => by
      simp only [afterBinary]
      rw [if_neg (by rintro rfl; exact absurd ho (by decide)), if_pos ho])
    (gets_bind (g := fun (y : C × List Tok) _ => some (C.asg o l y.1, y.2)) hb gets_pure)

theorem assign_unary (ts : List Tok) {c : C} {rest : List Tok}
    (h : Gets (fun n => unary n ts) (c, rest)) (hs : stopAssign rest = true) :
    Gets (fun n => assign n ts) (c, rest) :=
  assign_of ts (binary_unary 0 ts h (stopAssign_binary hs)) (afterBinary_stop c rest hs)

theorem expr_of (ts : List Tok) {x r : C × List Tok}
    (hx : Gets (fun n => assign n ts) x) (h : Gets (fun n => commas n x.1 x.2) r) :
    Gets (fun n => expr n ts) r :=
  gets_step (fun n => (assign n ts).bind fun x => commas n x.1 x.2)
    (fun n => by simp only [expr]) (gets_bind (g := fun x n => commas n x.1 x.2) hx h)

theorem commas_comma (a : C) (ts : List Tok) {x r : C × List Tok}
    (hx : Gets (fun n => assign n ts) x) (h : Gets (fun n => commas n (.comma a x.1) x.2) r) :
    Gets (fun n => commas n a (.op .comma :: ts)) r :=
  gets_step (fun n => (assign n ts).bind fun x => commas n (.comma a x.1) x.2)
    (fun n => by simp only [commas]) (gets_bind (g := fun x n => commas n (.comma a x.1) x.2) hx h)

/-- What may follow a complete *expression*. -/
def stopExpr : List Tok → Bool
  | .op o :: r => stopAssign (.op o :: r) && !(o = .comma)
  | _ => true

theorem stopExpr_assign {ts : List Tok} (h : stopExpr ts = true) : stopAssign ts = true := by
  cases ts with
  | nil => rfl
  | cons t r =>
      cases t with
      | w a => rfl
      | op o => simp only [stopExpr, Bool.and_eq_true] at h; exact h.1

theorem commas_stop (a : C) (ts : List Tok) (h : stopExpr ts = true) :
    Gets (fun n => commas n a ts) (a, ts) := by
  refine gets_step (fun _ => some (a, ts)) (fun n => ?_) gets_pure
  cases ts with
  | nil => rfl
  | cons t r =>
      cases t with
      | w b => rfl
      | op o =>
          simp only [stopExpr, Bool.and_eq_true, Bool.not_eq_true', decide_eq_false_iff_not] at h
          have h2 := h.2
          cases o <;> first | rfl | exact absurd rfl h2

theorem expr_assign (ts : List Tok) {c : C} {rest : List Tok}
    (h : Gets (fun n => assign n ts) (c, rest)) (hs : stopExpr rest = true) :
    Gets (fun n => expr n ts) (c, rest) :=
  expr_of ts h (commas_stop c rest hs)

theorem arguments_none (ts : List Tok) : Gets (fun n => arguments n (.op .rpar :: ts)) ([], ts) :=
  gets_step (fun _ => some ([], ts)) (fun n => by simp only [arguments]) gets_pure

theorem moreArguments_end (ts : List Tok) : Gets (fun n => moreArguments n (.op .rpar :: ts)) ([], ts) :=
  gets_step (fun _ => some ([], ts)) (fun n => by simp only [moreArguments]; rw [if_pos trivial]) gets_pure

theorem moreArguments_comma (ts : List Tok) {a : C} {r1 : List Tok} {as : List C} {rest : List Tok}
    (ha : Gets (fun n => assign n ts) (a, r1)) (h : Gets (fun n => moreArguments n r1) (as, rest)) :
    Gets (fun n => moreArguments n (.op .comma :: ts)) (a :: as, rest) :=
  gets_step (fun n => (assign n ts).bind fun x => (moreArguments n x.2).bind fun y => some (x.1 :: y.1, y.2))
    (fun n => by simp only [moreArguments]; rw [if_neg (by decide), if_pos trivial])
    (gets_bind (g := fun (x : C × List Tok) n => (moreArguments n x.2).bind fun y => some (x.1 :: y.1, y.2)) ha
      (gets_bind (f := fun n => moreArguments n r1) (g := fun (y : List C × List Tok) _ => some (a :: y.1, y.2)) h gets_pure))

/-- A token an assignment can start with. -/
def startsAssign : List Tok → Bool
  | .op .rpar :: _ => false
  | _ => true

theorem arguments_some (ts : List Tok) (hs : startsAssign ts = true) {a : C} {r1 : List Tok} {as : List C}
    {rest : List Tok}
    (ha : Gets (fun n => assign n ts) (a, r1)) (h : Gets (fun n => moreArguments n r1) (as, rest)) :
    Gets (fun n => arguments n ts) (a :: as, rest) :=
  gets_step (fun n => (assign n ts).bind fun x => (moreArguments n x.2).bind fun y => some (x.1 :: y.1, y.2))
    (fun n => by
      cases ts with
      | nil => simp only [arguments]
      | cons t r =>
          cases t with
          | w b => simp only [arguments]
          | op o => 
              by_cases ho : o = .rpar
              · subst ho; simp [startsAssign] at hs
              · cases o <;> first | exact absurd rfl ho | simp only [arguments])
    (gets_bind (g := fun (x : C × List Tok) n => (moreArguments n x.2).bind fun y => some (x.1 :: y.1, y.2)) ha
      (gets_bind (f := fun n => moreArguments n r1) (g := fun (y : List C × List Tok) _ => some (a :: y.1, y.2)) h gets_pure))

end Verif.CppGram
