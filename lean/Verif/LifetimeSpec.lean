import Verif.Lifetime
/-!
# What a lifetime means

A lifetime is a list of regions, each with a list of paths; a path leads to a set of places.  A place is a sequence of
flat field indices: the field of the root value, then a field of what that field refers to, and so on.  This file does
not use the functions of the model.
-/
namespace Verif.Lifetime
open Verif

/-- The place `q` is in the storage `p` leads to: its leading indices lie in the ranges of `p`, the others are free. -/
def covers : SPath → List Nat → Prop
  | [], _ => True
  | sr :: p, x :: q => sr.flatOffset ≤ x ∧ x < sr.flatOffset + sr.flatCount ∧ covers p q
  | _ :: _, [] => False

/-- The only path of a region that is not divided any further: `SR_empty`. -/
def whole : Paths := [[⟨0, 0⟩]]

/-- The paths the compiler builds: all but the last step select a single field (which is then dereferenced), the last one
a non-empty range of fields. -/
def ValidPath : SPath → Prop
  | [] => False
  | [sr] => 0 < sr.flatCount ∧ sr.flatCount < 2 ^ 31 ∧ sr.flatOffset < 2 ^ 31
  | sr :: p => sr.flatCount = 1 ∧ sr.flatOffset < 2 ^ 31 ∧ ValidPath p

/-- The paths of a region. -/
def ValidPaths (ps : Paths) : Prop := ps = whole ∨ (ps ≠ [] ∧ ∀ p ∈ ps, ValidPath p)

/-- A decoded lifetime. -/
abbrev Regions := List (BitVec 32 × Paths)

/-- The storage a lifetime denotes: the places `q` of region `r`. -/
def denotes (l : Regions) (r : BitVec 32) (q : List Nat) : Prop :=
  ∃ ps, (r, ps) ∈ l ∧ (ps = whole ∨ ∃ p ∈ ps, covers p q)

/-- The order of the regions in a lifetime: temporaries, locals and arguments (descending), references from outside
(`r % 4 = 2`, ascending), statics. -/
def rank (r : BitVec 32) : Nat :=
  if r = 9#32 then 0
  else if r.toNat % 4 = 1 ∧ r.toNat / 8 % 2 = 0 then 2 ^ 34 + (2 ^ 32 - r.toNat)
  else if r.toNat % 4 = 2 then 2 ^ 33 + r.toNat
  else 2 ^ 32 - r.toNat

/-- Well-formed: the regions ascend, and the paths of each are valid. -/
structure Valid (l : Regions) : Prop where
  sorted : l.Pairwise (fun a b => rank a.1 < rank b.1)
  paths : ∀ e ∈ l, ValidPaths e.2

/-- The 7-bit encoding of a number. -/
def leb (n : Nat) : Str :=
  if n < 128 then [BitVec.ofNat 8 n] else BitVec.ofNat 8 (128 + n % 128) :: leb (n / 128)
termination_by n
decreasing_by omega

/-- The encoding of a path; `last` when it is the last of its region. -/
def encPath (last : Bool) : SPath → Str
  | [] => []
  | [sr] => leb (2 * sr.flatOffset) ++ leb (2 * sr.flatCount + if last then 0 else 1)
  | sr :: p => leb (2 * sr.flatOffset + 1) ++ encPath last p

/-- The encoding of the paths of a region. -/
def encPaths : Paths → Str
  | [] => []
  | [p] => encPath true p
  | p :: ps => encPath false p ++ encPaths ps

/-- The encoding of a lifetime. -/
def encode : Regions → Str
  | [] => []
  | (r, ps) :: l => leb r.toNat ++ encPaths ps ++ encode l

end Verif.Lifetime
