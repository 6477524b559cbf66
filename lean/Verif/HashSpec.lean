import Verif.Hash
/-!
# What a map is, and histories of calls

The specification of C17, independent of the index, the buckets and the data array: a finite map is a list of pairs with
distinct keys whose order does not matter.
-/
namespace Verif.Hash
variable {K V : Type} [DecidableEq K]

namespace Spec

/-- The value of a key. -/
def find (s : List (K × V)) (k : K) : Option V := (s.find? (fun p => p.1 = k)).map Prod.snd

/-- The map without a key. -/
def drop (s : List (K × V)) (k : K) : List (K × V) := s.filter (fun p => p.1 ≠ k)

/-- The map with a key bound to a value. -/
def put (s : List (K × V)) (k : K) (v : V) : List (K × V) := (k, v) :: drop s k

omit [DecidableEq K] in
/-- The pairs that are left, and the state of the visitor, when it has seen the pairs `es` in this order: it may
replace a value and may ask for a pair to be removed. -/
def visitAll {σ : Type} (visit : σ → K → V → σ × V × Bool) : σ → List (K × V) → σ × List (K × V)
  | s, [] => (s, [])
  | s, (k, v) :: es =>
    let r := visit s k v
    let rest := visitAll visit r.1 es
    (rest.1, if r.2.2 then rest.2 else (k, r.2.1) :: rest.2)

end Spec

/-- The calls.  The visitor of `each` is told which pairs it has seen before, and answers with the value to store and
whether the pair is to be removed. -/
inductive Op (K V : Type) where
  | set (k : K) (v : V)
  | update (k : K) (f : V → V) (init : V)
  | modify (k : K) (f : V → V)
  | get (k : K)
  | remove (k : K)
  | len
  | clear
  | each (visit : List (K × V) → K → V → V × Bool)

/-- What a call returns; for `each`, the pairs visited, in order. -/
inductive Out (K V : Type) where
  | unit
  | value (v : Option V)
  | num (n : Nat)
  | pairs (l : List (K × V))

/-- A visitor that remembers what it has seen. -/
def seeing (visit : List (K × V) → K → V → V × Bool) (seen : List (K × V)) (k : K) (v : V) :
    List (K × V) × V × Bool := (seen ++ [(k, v)], visit seen k v)

/-- A call on the modelled map; `h` is the hash function and `dflt` the default-initialised value. -/
def step (h : K → Int) (dflt : V) (m : Map K V) : Op K V → Except Err (Map K V × Out K V)
  | .set k v => do .ok (← set h dflt m k v, .unit)
  | .update k f init => do .ok (← refm m k (foldSign (h k)) f init, .unit)
  | .modify k f => do
    let (m, r) ← ifRef m k (foldSign (h k)) f
    .ok (m, .value r)
  | .get k => do .ok (m, .value (← get h m k))
  | .remove k => do
    let (m, r) ← del h m k
    .ok (m, .value r)
  | .len => .ok (m, .num (len m))
  | .clear => .ok (clear m, .unit)
  | .each visit => do
    let (m, seen) ← each (seeing visit) m []
    .ok (m, .pairs seen)

/-- A history of calls. -/
def run (h : K → Int) (dflt : V) : Map K V → List (Op K V) → Except Err (Map K V × List (Out K V))
  | m, [] => .ok (m, [])
  | m, op :: ops => do
    let (m, o) ← step h dflt m op
    let (m, os) ← run h dflt m ops
    .ok (m, o :: os)

/-- What a call on a finite map does: `SpecStep s op s' o`. -/
inductive SpecStep : List (K × V) → Op K V → List (K × V) → Out K V → Prop
  | set (s k v) : SpecStep s (.set k v) (Spec.put s k v) .unit
  | update (s k f init) : SpecStep s (.update k f init) (Spec.put s k (f ((Spec.find s k).getD init))) .unit
  | modify_some (s k f v) : Spec.find s k = some v → SpecStep s (.modify k f) (Spec.put s k (f v)) (.value (some v))
  | modify_none (s k f) : Spec.find s k = none → SpecStep s (.modify k f) s (.value none)
  | get (s k) : SpecStep s (.get k) s (.value (Spec.find s k))
  | remove (s k) : SpecStep s (.remove k) (Spec.drop s k) (.value (Spec.find s k))
  | len (s) : SpecStep s .len s (.num s.length)
  | clear (s) : SpecStep s .clear [] .unit
  | each (s visit es) : es.Perm s →
      SpecStep s (.each visit) (Spec.visitAll (seeing visit) [] es).2 (.pairs es)

/-- A history of calls on a finite map. -/
inductive SpecRun : List (K × V) → List (Op K V) → List (K × V) → List (Out K V) → Prop
  | nil (s) : SpecRun s [] s []
  | cons (s op s1 o ops s2 os) : SpecStep s op s1 o → SpecRun s1 ops s2 os → SpecRun s (op :: ops) s2 (o :: os)

end Verif.Hash
