import Verif.VecExpr
/-!
# Specification of `+`, `slice`, `substr`, `view_swap` on lists

`+` concatenates, `slice` cuts out the items between two positions forced into range, `view_swap` exchanges two items;
every operand that is not consumed keeps its value.
-/
namespace Verif.Vec.Spec
open Verif.Vec (Op Stmt)
variable {α : Type}

/-- The value of a live variable. -/
def val (t : SState α) (i : Nat) : Option (Val α) :=
  match t.vars[i]? with
  | some (some xs) => some xs
  | _ => none

/-- A new variable. -/
def give (t : SState α) (xs : Val α) : R (SState α) :=
  if xs.length + 1 < 2 ^ 31 then .next { t with vars := t.vars ++ [some xs] } else .illegal

/-- Variable `i` is used up. -/
def use (t : SState α) (i : Nat) : SState α := { t with vars := t.vars.set i none }

/-- Items `a … a + n` of a list, if it has them. -/
def view (xs : Val α) (a n : Nat) : Option (Val α) := if a + n ≤ xs.length then some ((xs.drop a).take n) else none

/-- The items from position `start` up to position `end_`. -/
def cut (xs : Val α) (start end_ : Int) : Val α := (xs.take end_.toNat).drop start.toNat

/-- A 32-bit signed integer. -/
def Fits (n : Int) : Prop := -(2 : Int) ^ 31 ≤ n ∧ n < (2 : Int) ^ 31

instance (n : Int) : Decidable (Fits n) := inferInstanceAs (Decidable (_ ∧ _))

/-- One statement on lists. -/
noncomputable def exec (ty : Ty) (zero : α) (t : SState α) : Stmt α → R (SState α)
  | .op o => step ty zero t o
  | .catMM i j =>
    match val t i, val t j with
    | some xs, some ys => if i = j then .illegal else give (use (use t i) j) (xs ++ ys)
    | _, _ => .illegal
  | .catMV i j a n _ =>
    match val t i, (val t j).bind (view · a n) with
    | some xs, some ys => give (use t i) (xs ++ ys)
    | _, _ => .illegal
  | .catVM j a n _ i =>
    match val t i, (val t j).bind (view · a n) with
    | some xs, some ys => give (use t i) (ys ++ xs)
    | _, _ => .illegal
  | .catCC aVec bVec i a n j b m =>
    match val t i, val t j with
    | some us, some vs =>
      -- a whole vector is all of its items
      if (aVec = true → a = 0 ∧ n = us.length) ∧ (bVec = true → b = 0 ∧ m = vs.length) ∧ ty.copiable then
        (match view us a n, view vs b m with
        | some xs, some ys => give t (xs ++ ys)
        | _, _ => .illegal)
      else .illegal
    | _, _ => .illegal
  | .catMI i x =>
    match val t i with
    | some xs => give (use t i) (xs ++ [some x])
    | none => .illegal
  | .catIM x i =>
    match val t i with
    | some xs => give (use t i) (some x :: xs)
    | none => .illegal
  | .catCI i a n _ x =>
    match (val t i).bind (view · a n) with
    | some xs => give t (xs ++ [some x])
    | none => .illegal
  | .catIC x i a n _ =>
    match (val t i).bind (view · a n) with
    | some xs => give t (some x :: xs)
    | none => .illegal
  | .sliceM1 i start =>
    match val t i with
    | some xs => give (use t i) (xs.drop start.toNat)
    | none => .illegal
  | .sliceM i start end_ =>
    match val t i with
    | some xs => if Fits (xs.length - end_) then give (use t i) (cut xs start end_) else .illegal
    | none => .illegal
  | .sliceC i start end_ =>
    match val t i with
    | some xs =>
      if ty.copiable ∧ Fits start ∧ Fits end_ ∧ Fits (min end_ xs.length - max start 0) then give t (cut xs start end_) else .illegal
    | none => .illegal
  | .sliceC1 i start =>
    match val t i with
    | some xs => if ty.copiable ∧ Fits start then give t (xs.drop start.toNat) else .illegal
    | none => .illegal
  | .substrM i start count =>
    match val t i with
    | some xs =>
      if Fits (start + count) ∧ Fits (xs.length - (start + count)) then give (use t i) (cut xs start (start + count)) else .illegal
    | none => .illegal
  | .substrC i start count =>
    match val t i with
    | some xs =>
      if ty.copiable ∧ Fits start ∧ Fits (start + count) ∧ Fits (min (start + count) xs.length - max start 0) then
        give t (cut xs start (start + count))
      else .illegal
    | none => .illegal
  | .swap i x y => edit t i fun xs =>
    if 0 ≤ x ∧ 0 ≤ y then
      (match xs[x.toNat]?, xs[y.toNat]? with
      | some p, some q => .next ((xs.set x.toNat q).set y.toNat p)
      | _, _ => .trap)
    else .trap

/-- A whole program on lists. -/
noncomputable def execAll (ty : Ty) (zero : α) (t : SState α) : List (Stmt α) → R (SState α)
  | [] => .next t
  | st :: sts =>
    match exec ty zero t st with
    | .next t' => execAll ty zero t' sts
    | .trap => .trap
    | .illegal => .illegal

end Verif.Vec.Spec
