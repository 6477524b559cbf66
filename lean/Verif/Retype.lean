import Verif.IntTypeProps
/-!
# The type of a literal is changed to the one wanted: src/solver.fu:2819-2870,
and the common type of two expressions: src/solver.fu:11298-11335

Of a type only what it is called is modelled (no qualifiers, facts or lifetimes, and no names with labels).
-/
namespace Verif.Retype
open Verif Verif.IntType
open Verif.Intlit (Lit)

/-- Types: numbers (built in or the user's own), strings, the type of `[]`, `never`, others. -/
inductive T where
  | num (t : Ty)
  | string
  | zeroes
  | never
  | other (n : Nat)
deriving DecidableEq, Repr

/-- Solved expressions.  `lit.text` is the text of an int; `used` is `helpers.mask & HM_LabelUsed`; the items of a block
before the last are not looked at.  `emptied` is what `definitWrap` makes (src/solver.fu:12939-12966): an empty value of
that type, after the node itself unless that does nothing. -/
inductive Node where
  | int (lit : Lit) (ty : T)
  | real (ty : T)
  | str (value : Str) (ty : T)
  | definit (ty : T)
  | ite (cond left right : Node) (ty : T)
  | block (used : Bool) (pre : List Nat) (last : Node) (ty : T)
  | emptyBlock (used : Bool) (ty : T)
  | argid (item : Node) (ty : T)
  | other (n : Nat) (ty : T)
  | emptied (node : Node) (ty : T)

/-- `node.type`. -/
def Node.ty : Node → T
  | .int _ t | .real t | .str _ t | .definit t | .ite _ _ _ t | .block _ _ _ t | .emptyBlock _ t | .argid _ t | .other _ t | .emptied _ t => t

/-- `node.kind == "definit"`. -/
def Node.isDefinit : Node → Bool
  | .definit _ => true
  | _ => false

/-- `is_arithmetic`. -/
def T.isArithmetic : T → Bool
  | .num _ => true
  | _ => false

/-- What `solveInt` sees of the type wanted. -/
def T.want : T → Option Want
  | .num t => some ⟨t.user, some t.prim⟩
  | _ => none

/-- src/types.fu:225-245 `definitType`. -/
def definitType (t : T) : T := if t = .never then .zeroes else t

/-- src/types.fu:430-447 `type_trySuper` of types with the same or different names without labels; src/canon.fu:18-24. -/
def trySuper (a b : T) : Option T :=
  if a = b then some a
  else if a = .zeroes then some b
  else if b = .zeroes then some a
  else none

/-- src/solver.fu:6060-6085 `solveString`; `member` looks a word up among the values of the type wanted. -/
def solveString (member : T → Str → Option T) (v : Str) (want : T) : T :=
  match member want v with
  | some t => t
  | none => .string

/-- src/solver.fu:2819-2850 `tryRetyping`: `none` is an error of the user's (a literal that is out of range),
`some none` is "cannot". -/
def tryRetyping (member : T → Str → Option T) : Node → T → Option (Option T)
  | n, expect =>
    if n.isDefinit ∨ n.ty = .zeroes then some (some (definitType expect))
    else match n with
    | .int lit ty =>
      if ty.isArithmetic ∧ expect.isArithmetic then (solveInt lit.text expect.want).map fun r => some (.num r.1) else some none
    | .real ty =>
      if ty.isArithmetic ∧ expect.isArithmetic then some (some (.num ⟨none, solveReal expect.want⟩)) else some none
    | .str v _ => some (some (solveString member v expect))
    | .ite _ l r _ => do
      let left ← tryRetyping member l expect
      let right ← tryRetyping member r expect
      match left, right with
      | some left, some right => some (trySuper left right)
      | _, _ => some none
    | .block used _ last _ => if used then some none else tryRetyping member last expect
    | .argid item _ => tryRetyping member item expect
    | _ => some none

/-- src/solver.fu:2852-2870 `applyRetype`; `none` is a `BUG`. -/
def applyRetype : Node → T → Option Node
  | n, retype =>
    if n.isDefinit ∨ n.ty = .zeroes then some (.emptied n retype)
    else match n with
    | .ite c l r _ => do
      let l ← applyRetype l retype
      let r ← applyRetype r retype
      some (.ite c l r retype)
    | .block used pre last _ => if used then none else do
      let last ← applyRetype last retype
      some (.block used pre last retype)
    | .argid item _ => do
      let item ← applyRetype item retype
      some (.argid item retype)
    | .emptyBlock _ _ => none
    | .int lit _ => some (.int lit retype)
    | .real _ => some (.real retype)
    | .str v _ => some (.str v retype)
    | .other n _ => some (.other n retype)
    | .emptied n _ => some (.emptied n retype)
    | .definit _ => some (.definit retype)

/-- What comes of two expressions that must have one type: the expressions and the type; the error "literals can be
retyped both ways"; or nothing yet (it goes on with the user's conversions, src/solver.fu:11338-11370, not modelled). -/
inductive Common where
  | found (a b : Node) (t : T)
  | ambiguous
  | unfound

/-- src/solver.fu:11298-11335 `convertToSuperType` up to the conversions; `none` is a literal's error, or a `BUG`. -/
def convertToSuperType (member : T → Str → Option T) (a b : Node) : Option Common :=
  match trySuper a.ty b.ty with
  | some t => some (.found a b t)
  | none => do
    let aRetype ← tryRetyping member a b.ty
    let bRetype ← tryRetyping member b a.ty
    let viaB : Option Common := match bRetype with
      | none => some .unfound
      | some r => match trySuper r a.ty with
        | none => some .unfound
        | some t => do
          let b ← applyRetype b r
          some (.found a b t)
    match aRetype with
    | none => viaB
    | some r =>
      if bRetype ≠ none then some .ambiguous
      else match trySuper r b.ty with
        | none => viaB
        | some t => do
          let a ← applyRetype a r
          some (.found a b t)

end Verif.Retype
