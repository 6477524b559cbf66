import Verif.Intlit
/-! # The type of an int literal

src/solver.fu:5940-5948 (`getBasePrim`), 5961-6024 (`solveInt`), 6026-6033 (`solveReal`). -/
namespace Verif.IntType
open Verif.Intlit (Intlit parse)

/-- the built-in types a literal may have -/
inductive Prim where
  | i8 | i16 | i32 | i64 | u8 | u16 | u32 | u64 | f32 | f64
deriving DecidableEq, Repr

/-- the type wanted: what it is (a primitive of the user's own has a number), and the built-in one it is made of (`getBasePrim`); none if
it is not made of one of these -/
structure Want where
  user : Option Nat
  base : Option Prim
deriving DecidableEq, Repr

/-- a type given to a literal: a built-in one or the user's made of it -/
structure Ty where
  user : Option Nat
  prim : Prim
deriving DecidableEq, Repr

inductive Facts where
  | alwaysTrue | alwaysFalse
deriving DecidableEq, Repr

/-- src/solver.fu:5961-6024 (`solveInt`): the type and whether the value is true, or an error. `want`: none if no type, or none that is a
primitive, is wanted (5968). The option to leave out the facts (6018) is off. -/
def solveInt (text : Str) (want : Option Want) : Option (Ty × Facts) :=
  match parse text with
  | none => none
  | some p =>
    if p.error ≠ none then none else
    let is (t : Prim) : Bool := match want with | none => false | some w => w.base = some t
    -- 5975-5985, 5987-5996
    let signedOk : Bool :=
      (p.minsizeF ≤ 32 && is .f32) || (p.minsizeF ≤ 64 && is .f64) ||
      (p.minsizeI ≤ 32 && is .i32) || (p.minsizeI ≤ 64 && is .i64) || (p.minsizeI ≤ 16 && is .i16) || (p.minsizeI ≤ 8 && is .i8)
    let unsignedOk : Bool :=
      (p.minsizeU ≤ 32 && is .u32) || (p.minsizeU ≤ 64 && is .u64) || (p.minsizeU ≤ 16 && is .u16) || (p.minsizeU ≤ 8 && is .u8)
    let ty : Option Ty :=
      if (!p.unsigned && signedOk) || (!p.signed && unsignedOk) then
        want.bind fun w => w.base.map fun b => ⟨w.user, b⟩
      else if p.unsigned || (!p.signed && p.base ≠ 10) then
        -- 6000-6002
        if p.minsizeU ≤ 32 then some ⟨none, .u32⟩ else if p.minsizeU ≤ 64 then some ⟨none, .u64⟩ else none
      else
        -- 6006-6007
        if p.minsizeI ≤ 32 then some ⟨none, .i32⟩ else if p.minsizeI ≤ 64 then some ⟨none, .i64⟩ else none
    ty.map fun t => (t, if p.absval ≠ 0 then .alwaysTrue else .alwaysFalse)

/-- src/solver.fu:6026-6033 (`solveReal`): by the type itself, not the one it is made of -/
def solveReal (want : Option Want) : Prim :=
  if want = some ⟨none, some .f32⟩ then .f32 else .f64

end Verif.IntType
