import Verif.VecModel
/-!
# Specification of programs over vectors

Every variable is an independent immutable list; an operation replaces the list of one variable.  No heap, no
sharing, no capacities, no construction states.  `none` is an item whose value is unspecified: `resize`, `grow` and
`splice_empty` without zero fill produce such items for types with trivial copies, and nothing else does.
-/
namespace Verif.Vec.Spec
open Verif.Vec (Op)
variable {α : Type}

/-- The value of a vector variable. -/
abbrev Val (α : Type) := List (Option α)

/-- The program state: variables (`none` once destroyed) and the items read so far. -/
structure SState (α : Type) where
  vars : List (Option (Val α))
  out : List (Option α)

/-- `trap`: the bounds check of an item access fired.  `illegal`: the API gives the operation no meaning. -/
inductive R (β : Type) where
  | next (b : β)
  | trap
  | illegal

/-- Force an integer into `0 … n`. -/
def clampTo (n : Nat) (i : Int) : Nat := (max 0 (min i n)).toNat

/-- Replace `d` items from `i` on by `ys`. -/
def spliceAt (xs : Val α) (i d : Nat) (ys : Val α) : Val α := xs.take i ++ ys ++ xs.drop (i + d)

/-- Sizes are 32-bit and leave room for one more. -/
def fit (xs : Val α) : R (Val α) := if xs.length + 1 < 2 ^ 31 then .next xs else .illegal

/-- Change one variable. -/
def edit (s : SState α) (i : Nat) (f : Val α → R (Val α)) : R (SState α) :=
  match s.vars[i]? with
  | some (some xs) =>
    match f xs with
    | .next ys => .next { s with vars := s.vars.set i (some ys) }
    | .trap => .trap
    | .illegal => .illegal
  | _ => .illegal

/-- The properties of the item type that matter: does a copy constructor exist, and is copying trivial? -/
structure Ty where
  copiable : Bool
  trivial : Bool

/-- A created item: the default value, unless the program asked for uninitialised memory. -/
def fresh (ty : Ty) (zero : α) (zeroFill : Bool) : Option α := if ty.trivial && !zeroFill then none else some zero

/-- Two lists that may be sharing storage: not empty, and one continues the other. -/
def Agree (xs ws : Val α) : Prop := xs ≠ [] ∧ (xs <+: ws ∨ ws <+: xs)

noncomputable instance (xs ws : Val α) : Decidable (Agree xs ws) := Classical.propDecidable _

/-- One statement on lists. -/
noncomputable def step (ty : Ty) (zero : α) (s : SState α) : Op α → R (SState α)
  | .new => .next { s with vars := s.vars ++ [some []] }
  | .lit xs => if xs.length + 1 < 2 ^ 31 then .next { s with vars := s.vars ++ [some (xs.map some)] } else .illegal
  | .copyNew j =>
    match s.vars[j]? with
    | some (some xs) => if ty.copiable then .next { s with vars := s.vars ++ [some xs] } else .illegal
    | _ => .illegal
  | .moveNew j =>
    match s.vars[j]? with
    | some (some xs) => .next { s with vars := s.vars.set j (some []) ++ [some xs] }
    | _ => .illegal
  | .copyAssign i j =>
    if i = j then .illegal else
    match s.vars[j]? with
    | some (some xs) => if ty.copiable then edit s i fun _ => .next xs else .illegal
    | _ => .illegal
  | .moveAssign i j =>
    if i = j then .illegal else
    match s.vars[j]? with
    | some (some xs) => edit { s with vars := s.vars.set j (some []) } i fun _ => .next xs
    | _ => .illegal
  | .drop i =>
    match s.vars[i]? with
    | some (some _) => .next { s with vars := s.vars.set i none }
    | _ => .illegal
  | .push i x => edit s i fun xs => fit (xs ++ [some x])
  | .insert i k x => edit s i fun xs => if 0 ≤ k ∧ k ≤ xs.length then fit (spliceAt xs k.toNat 0 [some x]) else .illegal
  | .unshift i x => edit s i fun xs => fit (some x :: xs)
  | .resize i zf n => edit s i fun xs => fit (xs.take n.toNat ++ List.replicate (n.toNat - xs.length) (fresh ty zero zf))
  | .grow i zf n => edit s i fun xs => fit (xs ++ List.replicate (n.toNat - xs.length) (fresh ty zero zf))
  | .shrink i n => edit s i fun xs => .next (xs.take n.toNat)
  | .clear i => edit s i fun _ => .next []
  | .pop i => edit s i fun xs => if xs = [] then .illegal else .next xs.dropLast
  | .shift i => edit s i fun xs => if xs = [] then .illegal else .next xs.tail
  | .spliceDel i idx del => edit s i fun xs =>
    let k := clampTo xs.length idx
    .next (spliceAt xs k (clampTo (xs.length - k) del) [])
  | .spliceEmpty i zf idx del c => edit s i fun xs =>
    if 0 ≤ idx ∧ idx ≤ xs.length then
      fit (spliceAt xs idx.toNat (clampTo (xs.length - idx.toNat) del) (List.replicate c.toNat (fresh ty zero zf)))
    else .illegal
  | .shiftPop i a b => edit s i fun xs =>
    let k := clampTo xs.length a
    let m := clampTo (xs.length - k) b
    .next ((xs.drop k).take (xs.length - k - m))
  | .reserve i c => edit s i fun xs => if c.toNat + 1 < 2 ^ 31 then .next xs else .illegal
  | .set i k x => edit s i fun xs => if 0 ≤ k ∧ k < xs.length then .next (xs.set k.toNat (some x)) else .trap
  | .get i k =>
    match s.vars[i]? with
    | some (some xs) =>
      if 0 ≤ k then
        (match xs[k.toNat]? with
        | some x => .next { s with out := s.out ++ [x] }
        | none => .trap)
      else .trap
    | _ => .illegal
  | .spliceMove i idx del j =>
    if i = j then .illegal else
    match s.vars[j]? with
    | some (some ys) => edit { s with vars := s.vars.set j none } i fun xs =>
        if 0 ≤ idx ∧ idx ≤ xs.length then fit (spliceAt xs idx.toNat (clampTo (xs.length - idx.toNat) del) ys) else .illegal
    | _ => .illegal
  | .appendMove i del j =>
    if i = j then .illegal else
    match s.vars[j]? with
    | some (some ys) => edit { s with vars := s.vars.set j none } i fun xs =>
        if 0 ≤ del ∧ del ≤ xs.length then fit (xs.take (xs.length - del.toNat) ++ ys) else .illegal
    | _ => .illegal
  | .spliceCopy i idx del j a n _ =>
    match s.vars[j]? with
    | some (some ws) => edit s i fun xs =>
        -- the last condition excludes the calls the code gets wrong, see `splice_copy_wrong`
        if 0 ≤ idx ∧ idx ≤ xs.length ∧ a + n ≤ ws.length ∧ ¬ (idx = 0 ∧ del = xs.length ∧ a = 0 ∧ n ≠ xs.length ∧ Agree xs ws) then
          fit (spliceAt xs idx.toNat (clampTo (xs.length - idx.toNat) del) ((ws.drop a).take n))
        else .illegal
    | _ => .illegal
  | .appendCopy i del j a n _ =>
    match s.vars[j]? with
    | some (some ws) => edit s i fun xs =>
        if 0 ≤ del ∧ del ≤ xs.length ∧ a + n ≤ ws.length ∧ ¬ (del = xs.length ∧ a = 0 ∧ n ≠ xs.length ∧ Agree xs ws) then
          fit (xs.take (xs.length - del.toNat) ++ (ws.drop a).take n)
        else .illegal
    | _ => .illegal

/-- A whole program on lists. -/
noncomputable def run (ty : Ty) (zero : α) (s : SState α) : List (Op α) → R (SState α)
  | [] => .next s
  | op :: ops =>
    match step ty zero s op with
    | .next s' => run ty zero s' ops
    | .trap => .trap
    | .illegal => .illegal

/-- No variables yet. -/
def start : SState α := { vars := [], out := [] }

end Verif.Vec.Spec
