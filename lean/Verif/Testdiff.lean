import Verif.Prelude
import Verif.PreludeCmp
/-!
# Model of `src/testdiff.fu`
-/
namespace Verif.Testdiff
open Verif

/-- src/testdiff.fu:10 `Dedupe`. -/
structure Dedupe where
  data : Str
  index : Nat
  deriving DecidableEq

/-- `a <> b` of strings (src/prelude.fu:802-812 on signed `char`s), see Verif.Prelude.cmpArr_eq. -/
def cmpStr (a b : Str) : Int := Prelude.cmpList (fun x y : Byte => Prelude.cmpPrim x.toInt y.toInt) a b

/-- src/testdiff.fu:30: the order of the first sort; `||` yields its first non-zero operand. -/
def less1 (a b : Dedupe) : Bool :=
  decide ((if cmpStr a.data b.data ≠ 0 then cmpStr a.data b.data else Prelude.cmpPrim a.index b.index) < 0)

/-- src/testdiff.fu:36: the order of the second sort. -/
def less2 (a b : Dedupe) : Bool := decide (a.index < b.index)

/-- What `std::sort` guarantees: some permutation with no later item before an earlier one, provided `less` is a strict
weak order (which is proved).  The choice among such results is left open. -/
def SortedBy (less : Dedupe → Dedupe → Bool) (l r : List Dedupe) : Prop :=
  r.Perm l ∧ r.Pairwise fun a b => less b a = false

/-- src/testdiff.fu:32-34: `for (i = dedupe.len; i --> 1; ) if (…) dedupe.splice(i, 1)`, with `i + 1` iterations to
go. -/
def dropDups (l : List Dedupe) : Nat → Option (List Dedupe)
  | 0 => some l
  | i + 1 => do
    -- here the loop variable is `i + 1`
    let a ← l[i]?
    let b ← l[i + 1]?
    if a.data = b.data then dropDups (l.take (i + 1) ++ l.drop (i + 2)) i else dropDups l i

/-- src/testdiff.fu:7-40 `serialize`: `out` is a possible result on the entries `data`. -/
def Serialize (junk : Nat → Str) (data : List Str) (out : Str) : Prop :=
  ∃ s1 d s2, SortedBy less1 (data.zipIdx.map fun p => ⟨p.1, p.2⟩) s1 ∧
    dropDups s1 (s1.length - 1) = some d ∧
    SortedBy less2 d s2 ∧
    Prelude.join junk (s2.map (·.data)) .nothing = some out

/-- src/testdiff.fu:42-45 `set_next`. -/
def setNext (data : List Str) (item : Str) : List Str := data ++ [item ++ str "\n========\n"]

/-- src/testdiff.fu:47-50 `append`. -/
def append (data other : List Str) : List Str := data ++ other

end Verif.Testdiff
