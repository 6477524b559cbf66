import Verif.Range
import Verif.VecSpec
/-!
# Specification of ranges

A range is a vector variable and the number of items it leaves out on the left and on the right.  What it designates
is a segment of the variable's list; an edit through the range replaces that segment and nothing else.
-/
namespace Verif.Range.Spec
open Verif.Vec (Op)
open Verif.Vec.Spec (Val R Ty SState clampTo spliceAt fresh edit fit)
variable {α : Type}

/-- variable, items left out on the left, items left out on the right -/
structure SRng where
  vec : Nat
  l : Nat
  r : Nat

/-- The segment designated. -/
def seg (l r : Nat) (xs : Val α) : Val α := (xs.drop l).take (xs.length - l - r)

/-- What an edit makes of the segment `m`; `src` are the items of the source, for the edits that have one. -/
def edited (ty : Ty) (zero : α) (m src : Val α) : ROp α → R (Val α)
  | .get _ => .illegal -- not an edit
  | .moveOut => .illegal -- not an edit
  | .set k x => if 0 ≤ k.toInt ∧ k.toInt < m.length then .next (m.set k.toInt.toNat (some x)) else .trap
  | .push x => .next (m ++ [some x])
  | .insert k x => .next (spliceAt m (clampTo m.length k.toInt) 0 [some x])
  | .unshift x => .next (some x :: m)
  | .resize zf n => .next (m.take n.toInt.toNat ++ List.replicate (n.toInt.toNat - m.length) (fresh ty zero zf))
  | .grow zf n => .next (m ++ List.replicate (n.toInt.toNat - m.length) (fresh ty zero zf))
  | .shrink n => .next (m.take n.toInt.toNat)
  | .clear => .next []
  | .pop => .next m.dropLast
  | .spliceDel idx del =>
    let k := clampTo m.length idx.toInt
    .next (spliceAt m k (clampTo (m.length - k) del.toInt) [])
  | .spliceMove idx del _ | .spliceCopy idx del _ _ _ _ =>
    let k := clampTo m.length idx.toInt
    .next (spliceAt m k (clampTo (m.length - k) del.toInt) src)
  | .appendMove del _ | .appendCopy del _ _ _ _ =>
    -- should be `m.take (m.length - clampTo m.length del) ++ src`; see `append_eats_right_neighbour`
    if del.toInt ≤ 0 then .next (m ++ src) else .illegal
  | .assignMove _ | .assignCopy _ _ => .next src

/-- The items of the source, and the state with a moved-from source gone.  `i` is the variable edited; `all`: the whole of it is. -/
def source (ty : Ty) (t : SState α) (i : Nat) (all : Bool) : ROp α → Option (SState α × Val α)
  | .spliceMove _ _ j | .appendMove _ j | .assignMove j =>
    if i = j then none else
    match t.vars[j]? with
    | some (some ys) => some ({ t with vars := t.vars.set j none }, ys)
    | _ => none
  | .spliceCopy _ _ j a n _ | .appendCopy _ j a n _ =>
    match t.vars[j]? with
    | some (some ws) => if a + n ≤ ws.length then some (t, (ws.drop a).take n) else none
    | _ => none
  | .assignCopy j _ =>
    if i = j ∧ all then none else
    match t.vars[j]? with
    | some (some ws) => if ty.copiable then some (t, ws) else none
    | _ => none
  | _ => some (t, [])

/-- The calls the vector gets wrong (`Verif.Vec.splice_copy_wrong`): everything in the vector replaced by a view that
starts at item 0 of a vector that may share its storage. -/
def bad (t : SState α) (xs : Val α) (m : Nat) : ROp α → Prop
  | .spliceCopy idx del j a n _ =>
    clampTo m idx.toInt = 0 ∧ clampTo m del.toInt = xs.length ∧ a = 0 ∧ n ≠ xs.length ∧
      ∃ ws, t.vars[j]? = some (some ws) ∧ Vec.Spec.Agree xs ws
  | _ => False

noncomputable instance (t : SState α) (xs : Val α) (m : Nat) (op : ROp α) : Decidable (bad t xs m op) := Classical.propDecidable _

/-- Vectors and ranges. -/
structure RS (α : Type) where
  st : SState α
  rngs : List SRng

/-- Use a range; it must fit the vector it points at (a range goes stale when the vector shrinks behind its back). -/
noncomputable def use (ty : Ty) (zero : α) (t : SState α) (g : SRng) (op : ROp α) : R (SState α) :=
  match t.vars[g.vec]? with
  | some (some xs) =>
    if g.l + g.r ≤ xs.length then
      let m := seg g.l g.r xs
      match op with
      | .get k =>
        if 0 ≤ k.toInt then
          (match m[k.toInt.toNat]? with
          | some x => .next { t with out := t.out ++ [x] }
          | none => .trap)
        else .trap
      | .moveOut => .next { t with vars := t.vars.set g.vec (some []) ++ [some m] }
      | op =>
        if bad t xs m.length op then .illegal else
        match source ty t g.vec (g.l + g.r == 0) op with
        | none => .illegal
        | some (t, src) =>
          match edited ty zero m src op with
          | .next m' =>
            let ys := xs.take g.l ++ m' ++ xs.drop (xs.length - g.r)
            if ys.length + 1 < 2 ^ 31 then .next { t with vars := t.vars.set g.vec (some ys) } else .illegal
          | .trap => .trap
          | .illegal => .illegal
    else .illegal
  | _ => .illegal

/-- Narrow a range: leave out the items before `a` and from `b` on, both clamped. -/
def narrow (t : SState α) (g : SRng) (a b : Nat → Int) : R SRng :=
  match t.vars[g.vec]? with
  | some (some xs) =>
    let n := xs.length - g.l - g.r
    if g.l + g.r ≤ xs.length then
      let stop := clampTo n (b n)
      let start := clampTo stop (a n)
      .next { g with l := g.l + start, r := g.r + (n - stop) }
    else .illegal
  | _ => .illegal

/-- Add a range. -/
def addRng (t : RS α) : R SRng → R (RS α)
  | .next g => .next { t with rngs := t.rngs ++ [g] }
  | .trap => .trap
  | .illegal => .illegal

/-- One statement. -/
noncomputable def step (ty : Ty) (zero : α) (t : RS α) : Stmt α → R (RS α)
  | .vec op =>
    match Vec.Spec.step ty zero t.st op with
    | .next st => .next { t with st := st }
    | .trap => .trap
    | .illegal => .illegal
  | .whole i => .next { t with rngs := t.rngs ++ [⟨i, 0, 0⟩] }
  | .subFrom g a => match t.rngs[g]? with | some g => addRng t (narrow t.st g (fun _ => a.toInt) (fun n => n)) | none => .illegal
  | .subTo g b => match t.rngs[g]? with | some g => addRng t (narrow t.st g (fun _ => 0) (fun _ => b.toInt)) | none => .illegal
  | .sub g a b => match t.rngs[g]? with | some g => addRng t (narrow t.st g (fun _ => a.toInt) (fun _ => b.toInt)) | none => .illegal
  | .use g op =>
    match t.rngs[g]? with
    | some g =>
      (match use ty zero t.st g op with
      | .next st => .next { t with st := st }
      | .trap => .trap
      | .illegal => .illegal)
    | none => .illegal

/-- A whole program. -/
noncomputable def run (ty : Ty) (zero : α) (t : RS α) : List (Stmt α) → R (RS α)
  | [] => .next t
  | s :: ss =>
    match step ty zero t s with
    | .next t => run ty zero t ss
    | .trap => .trap
    | .illegal => .illegal

/-- No variables, no ranges. -/
def start : RS α := { st := Vec.Spec.start, rngs := [] }

end Verif.Range.Spec
