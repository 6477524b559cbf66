import Verif.CgStmt
import Verif.CgMean

/-!
# C93: C++ statements

Specification only: how C++ groups the tokens of statements ([stmt]), and what the statements do.

`One ts c rest`: the tokens start with the statement `c`, and `rest` is left.  An `else` belongs to the
nearest `if`.

`does n c`: all the ways a statement can go when no loop is run more than `n` times; running out of
turns is an outcome (`timeout`).  A `goto` leaves statements until a list of statements in which the
label comes later; only such jumps are given a meaning, others leave the function.
-/

namespace Verif.CppStmt

open Verif.CgText Verif.CgExpr Verif.CgStmt Verif.CppGram Verif.CgMean

/-- A statement. -/
inductive CS where
  | ex (t : List Sym)
  | skip
  | seq (l : List CS)
  | ite (t : List Sym) (a : CS)
  | itel (t : List Sym) (a b : CS)
  | wh (t : List Sym) (s : CS)
  | dow (s : CS) (t : List Sym)
  | for_ (init cond post : Option (List Sym)) (s : CS)
  | goto (g : Lab)
  | lab (g : Lab) (s : CS)
  | brk
  | cont
  | ret (t : Option (List Sym))
deriving Repr

/-- An expression that may not be there. -/
def toks1 : Option (List Sym) → List Tk
  | none => []
  | some t => [.x t]

mutual
/-- The tokens start with this statement; the rest. -/
inductive One : List Tk → CS → List Tk → Prop where
  | ex {t r} : One (.x t :: .semi :: r) (.ex t) r
  | decl {r} : One (.decl :: .semi :: r) .skip r
  | skip {r} : One (.semi :: r) .skip r
  | block {ts l r} : Many ts l (.rbr :: r) → One (.lbr :: ts) (.seq l) r
  | ite {t ts a r} : One ts a r → r.head? ≠ some .kelse → One (.kif :: .lp :: .x t :: .rp :: ts) (.ite t a) r
  | itel {t ts a ts' b r} : One ts a (.kelse :: ts') → One ts' b r →
      One (.kif :: .lp :: .x t :: .rp :: ts) (.itel t a b) r
  | wh {t ts s r} : One ts s r → One (.kwhile :: .lp :: .x t :: .rp :: ts) (.wh t s) r
  | dow {t ts s r} : One ts s (.kwhile :: .lp :: .x t :: .rp :: .semi :: r) → One (.kdo :: ts) (.dow s t) r
  | for_ {a b c ts s r} : One ts s r →
      One (.kfor :: .lp :: (toks1 a ++ .semi :: (toks1 b ++ .semi :: (toks1 c ++ .rp :: ts)))) (.for_ a b c s) r
  | goto {g r} : One (.goto g :: .semi :: r) (.goto g) r
  | lab {g ts s r} : One ts s r → One (.label g :: ts) (.lab g s) r
  | brk {r} : One (.kbreak :: .semi :: r) .brk r
  | cont {r} : One (.kcont :: .semi :: r) .cont r
  | ret {r} : One (.kret :: .semi :: r) (.ret none) r
  | retv {t r} : One (.kret :: .x t :: .semi :: r) (.ret (some t)) r
/-- The tokens start with these statements. -/
inductive Many : List Tk → List CS → List Tk → Prop where
  | nil {ts} : Many ts [] ts
  | cons {ts c r l r'} : One ts c r → Many r l r' → Many ts (c :: l) r'
end

/-! ## What statements do -/

variable (W : World)

/-- How a statement can end. -/
inductive CO where
  | norm (st : St W)
  | brk (st : St W)
  | cont (st : St W)
  | goto (g : Lab) (st : St W)
  | ret (v : Option Val) (st : St W)
  /-- an expression did not come back -/
  | hang
  /-- a loop was run `n` times and would go on -/
  | timeout

/-- All the ways a statement can go. -/
abbrev Act := St W → CO W → Prop

variable {W}

/-- All the ways the text of an expression can be evaluated. -/
def evalT (t : List Sym) (st : St W) (r : Res W CVal) : Prop := ∃ c, ReadsAs t c ∧ den c st r

/-- Evaluates an expression and goes on. -/
def onVal (t : List Sym) (k : CVal → Act W) : Act W := fun st o =>
  ∃ r, evalT t st r ∧ match r with
    | none => o = .hang
    | some x => k x.1 x.2 o

/-- The condition of a loop: none is true. -/
def onTest (t : Option (List Sym)) (k : Bool → Act W) : Act W :=
  match t with
  | none => k true
  | some t => onVal t fun v => k (ctruth W v)

/-- An expression for its effect, if there is one. -/
def onStep (t : Option (List Sym)) (k : Act W) : Act W :=
  match t with
  | none => k
  | some t => onVal t fun _ => k

/-- After the body of a loop: goes on, stops, or leaves the loop for elsewhere. -/
def afterBody (next : Act W) : CO W → CO W → Prop
  | .norm st, o => next st o
  | .cont st, o => next st o
  | .brk st, o => o = .norm st
  | o1, o => o = o1

/-- `for (; cond; post) body` -/
def forN (cond post : Option (List Sym)) (body : Act W) : Nat → Act W
  | 0 => onTest cond fun b st o => if b then o = .timeout else o = .norm st
  | n + 1 => onTest cond fun b st o =>
      if b then ∃ o1, body st o1 ∧ afterBody (onStep post (forN cond post body n)) o1 o else o = .norm st

/-- `do body while (cond)` -/
def doN (body : Act W) (cond : List Sym) : Nat → Act W
  | 0 => fun _ o => o = .timeout
  | n + 1 => fun st o => ∃ o1, body st o1 ∧
      afterBody (onVal cond fun v st2 o => if ctruth W v then doN body cond n st2 o else o = .norm st2) o1 o

/-- The label of a statement. -/
def CS.label : CS → Option Lab
  | .lab g _ => some g
  | _ => none

variable (W) in
mutual
/-- **What a statement does**, in a function that returns the type. -/
def does (rt : Ty) (n : Nat) : CS → Act W
  | .ex t => onVal t fun _ st o => o = .norm st
  | .skip => fun st o => o = .norm st
  | .seq l => doesL rt n l none
  | .ite t a => onVal t fun v st o => if ctruth W v then does rt n a st o else o = .norm st
  | .itel t a b => onVal t fun v st o => if ctruth W v then does rt n a st o else does rt n b st o
  | .wh t s => forN (some t) none (does rt n s) n
  | .dow s t => doN (does rt n s) t n
  | .for_ a b c s => onStep a (forN b c (does rt n s) n)
  | .goto g => fun st o => o = .goto g st
  | .lab _ s => does rt n s
  | .brk => fun st o => o = .brk st
  | .cont => fun st o => o = .cont st
  | .ret none => fun st o => o = .ret none st
  | .ret (some t) => onVal t fun c st o => match conv W rt c with
      | some v => o = .ret (some v) st
      | none => ∃ v st', o = .ret v st'
/-- A list of statements, from the label that is looked for on, if one is. -/
def doesL (rt : Ty) (n : Nat) : List CS → Option Lab → Act W
  | [], none => fun st o => o = .norm st
  | [], some g => fun st o => o = .goto g st
  | c :: r, seek => fun st o =>
      if seek.isSome ∧ seek ≠ c.label then doesL rt n r seek st o
      else ∃ o1, does rt n c st o1 ∧ match o1 with
        | .norm st' => doesL rt n r none st' o
        | .goto g st' => doesL rt n r (some g) st' o
        | o1 => o = o1
end

end Verif.CppStmt
