import Verif.Lifetime
/-! # Where the fields of a struct are: flat offsets, their packed form, lifetimes of fields

src/solver.fu:800-834 (`field_packOffset`, `field_unpackOffset`), 8836-8932 (the loop of `solveStruct` over the members), 3023-3043 and
src/types.fu:263-278 (`make_field_reference`), src/context.fu:314-322 (`getFlatCount`), src/solver.fu:938-975 (the lifetime printed). -/
namespace Verif.Field
open Verif.Lifetime (Lifetime_op_field)

/-- a type as far as its parts go: a built-in, an array or slice, a type of the user's (by its number), or one with nothing in it -/
inductive Ty where
  | nothing | prim | slice | user (k : Nat)
deriving DecidableEq, Repr

/-- enums, flags and primitives are of kind `prim` (`isPrimDecl`) -/
inductive Kind where
  | struct | union | prim
deriving DecidableEq, Repr

/-- a declaration: what the members' types are -/
structure Decl where
  kind : Kind
  members : List Ty
deriving DecidableEq, Repr

/-- a field: its type and the number its place is packed in (`solved.helpers`) -/
structure Field where
  ty : Ty
  packed : BitVec 32
deriving DecidableEq, Repr

/-- a user type that is solved: src/module.fu:94 `shape.flatCount` and the items -/
structure UserType where
  flatCount : BitVec 32
  fields : List Field
deriving DecidableEq, Repr

/-- src/context.fu:314-322 (`getFlatCount`); none if the type is not solved yet -/
def getFlatCount (types : List UserType) : Ty → Option (BitVec 32)
  | .nothing => some 0#32
  | .prim => some 1#32
  | .slice => some 1#32
  | .user k => types[k]?.map (·.flatCount)

/-- src/solver.fu:802-817 -/
def pack (offset count : BitVec 32) : BitVec 32 := offset ||| (count <<< 16)

/-- src/solver.fu:819-834: offset and count -/
def unpack (packed : BitVec 32) : BitVec 32 × BitVec 32 := (packed &&& 0xffff#32, packed.sshiftRight 16)

/-- src/solver.fu:8836-8932: the members in order, from the count so far (`shape.flatCount`, a number of 32 bits that goes round); the rest of the
shape is left out. A member of a type that is not solved is a type that has itself in it, which is refused (8905-8912). -/
def layout (types : List UserType) : List Ty → BitVec 32 → Option (List Field × BitVec 32)
  | [], sum => some ([], sum)
  | t :: ts, sum =>
    match getFlatCount types t with
    | none => none
    | some count =>
      match layout types ts (sum + count) with
      | none => none
      | some (fields, total) => some (⟨t, pack sum count⟩ :: fields, total)

/-- src/solver.fu:8628-8636, 8836-8932: an enum, flags or a primitive counts for one and its members are no fields -/
def solveStruct (types : List UserType) (d : Decl) : Option UserType :=
  match d.kind with
  | .prim => some ⟨1#32, []⟩
  | .struct | .union => (layout types d.members 0#32).map fun r => ⟨r.2, r.1⟩

/-- all declarations, in an order in which a struct comes after the types its members are of -/
def solveAll : List Decl → List UserType → Option (List UserType)
  | [], types => some types
  | d :: ds, types =>
    match solveStruct types d with
    | none => none
    | some s => solveAll ds (types ++ [s])

/-- src/solver.fu:3023-3043 and src/types.fu:263-278 (`make_field_reference`): the lifetime of a field of a value that lives `lt`; none for what the self test
(src/lifetime.fu:309-313) stops. A field of a type with nothing in it is held to be static (3037). -/
def fieldOf (static : Str) (lt : Str) (f : Field) : Option Str :=
  let (offset, count) := unpack f.packed
  if count = 0#32 then some static
  else if offset.toInt ≥ 0 ∧ count.toInt > 0 then Lifetime_op_field lt count.toNat offset.toNat else none

/-- a chain of fields `v.i.j.k` of a value of type number `k`, one `make_field_reference` each -/
def chain (types : List UserType) (static : Str) : Ty → List Nat → Str → Option Str
  | _, [], lt => some lt
  | .user k, i :: p, lt =>
    match types[k]? with
    | none => none
    | some s =>
      match s.fields[i]? with
      | none => none
      | some f =>
        match fieldOf static lt f with
        | none => none
        | some lt' => chain types static f.ty p lt'
  | _, _ :: _, _ => none

/-- src/solver.fu:957-967: the first field that ends after the offset -/
def pick (fields : List Field) (offset : BitVec 32) : Nat → Option (Nat × Field)
  | i => match fields with
    | [] => none
    | f :: fs =>
      if ((unpack f.packed).1 + (unpack f.packed).2).toInt > offset.toInt then some (i, f) else pick fs offset (i + 1)

/-- src/solver.fu:949-973: the fields printed for a place in a value of a type; a type that is not the user's has a count of zero (`s.shape` of
nothing). The fuel is for the depth of the type (the loop has no other bound). -/
def explain (types : List UserType) : Nat → Ty → BitVec 32 → BitVec 32 → List Nat
  | 0, _, _, _ => []
  | fuel + 1, t, count, offset =>
    match (match t with | .user k => types[k]? | _ => none) with
    | none => []
    | some s =>
      if count.toInt ≥ s.flatCount.toInt then [] else
      match pick s.fields offset 0 with
      | none => []
      | some (i, f) => i :: explain types fuel f.ty count (offset - (unpack f.packed).1)

end Verif.Field
