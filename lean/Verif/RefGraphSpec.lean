import Verif.RefGraph
/-! # C98: where references point

A run binds every reference to one of the variables its initialiser may refer to. So each variable has a place: a root and
steps from there. Nothing here depends on the graph. -/
namespace Verif.RefGraph

/-- the variables that are bound -/
def lefts (h : Hist) : List Nat := h.map (·.1)

/-- the variables that occur -/
def mentioned (h : Hist) : List Nat := h.flatMap fun e => e.1 :: e.2.map (·.1)

/-- variables are bound once, before they are used -/
def Ordered : Hist → Prop
  | [] => True
  | (l, right) :: older => l ≠ 0 ∧ l ∉ mentioned older ∧ l ∉ right.map (·.1) ∧ Ordered older

/-- a run: `src` is what each reference was bound to, `place` the root and the steps to where it points -/
structure Acts (h : Hist) (src : Nat → Option Nat) (place : Nat → Nat × Path) : Prop where
  bound : ∀ l right, (l, right) ∈ h → ∃ r p, src l = some r ∧ (r, p) ∈ right ∧ place l = ((place r).1, (place r).2 ++ p)
  free : ∀ v, v ∉ lefts h → src v = none ∧ place v = (v, [])

/-- `x` is what `w` was bound to, or what that was bound to, and so on -/
inductive Above (src : Nat → Option Nat) : Nat → Nat → Prop where
  | step {x w} : src w = some x → Above src x w
  | more {x r w} : src w = some r → Above src x r → Above src x w

/-- one place is inside the other (or they are the same) -/
def Overlap (p q : Nat × Path) : Prop := p.1 = q.1 ∧ (p.2 <+: q.2 ∨ q.2 <+: p.2)

/-- src/solver.fu:4134-4183 (`callarg_trackWrites`): what is written through a reference is written in all it may be bound to -/
def Closed (written : Nat → Bool) (h : Hist) : Prop :=
  ∀ l right, (l, right) ∈ h → written l = true → ∀ r p, (r, p) ∈ right → written r = true

end Verif.RefGraph
