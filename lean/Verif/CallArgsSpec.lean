import Verif.CallArgs
/-!
# Specification of how a call binds its arguments

A named argument goes to the parameter of that name. The parameters nobody names are *free*; the first free ones are
left to the `using` declarations in scope when the call has fewer arguments than the function requires, and the
positional arguments go to the following free ones in order. A parameter that gets nothing is defaulted, bound to the
implicit in scope or supplied by a `using`.
-/
namespace Verif.CallArgs.Spec
open Verif.CallArgs (Param Arg Sig Slot Types)

/-- The parameters the caller can see. -/
def visible (s : Sig) : List Param := s.params.filter fun p => !p.inj

/-- A parameter that has to be supplied. -/
def Required (p : Param) : Bool := !p.dflt && !p.impl

/-- The first argument with a name. -/
def named (args : List Arg) (n : String) : Option Nat := args.findIdx? fun a => a.name == n

/-- Nobody names the parameter. -/
def free (args : List Arg) (p : Param) : Bool := (named args p.name).isNone

/-- The number of free parameters before parameter `i`. -/
def rank (ps : List Param) (args : List Arg) (i : Nat) : Nat := ((ps.take i).filter (free args)).length

/-- Is argument `j` positional? -/
def isPositional (args : List Arg) (j : Nat) : Bool :=
  match args[j]? with
  | some a => a.name == ""
  | none => false

/-- The positional arguments, in order. -/
def positional (args : List Arg) : List Nat := (List.range args.length).filter (isPositional args)

/-- How many required arguments the call leaves to `using`. -/
def shortBy (s : Sig) (args : List Arg) : Nat := s.min - args.length

/-- The argument parameter `i` of `ps` gets, if any. -/
def expect (ps : List Param) (args : List Arg) (nu i : Nat) : Option Nat :=
  match ps[i]? with
  | none => none
  | some p =>
    match named args p.name with
    | some j => some j
    | none => if rank ps args i < nu then none else (positional args)[rank ps args i - nu]?

/-- What a parameter gets, given the argument meant for it. -/
def slotOf (p : Param) : Option Nat → Slot
  | some j => .given j
  | none => if p.dflt then .dflt else if p.impl then .implicit else .using_

/-- What every parameter gets. -/
def slots (s : Sig) (args : List Arg) : List Slot :=
  s.params.zipIdx.map fun (p, i) => slotOf p (expect (visible s) args (shortBy s args) i)

/-- Well-formed signatures: what `declare` and `typeSig` produce when there is no rest parameter (see
`declare_wellFormed` and `typeSig_wellFormed`). -/
structure WellFormed (s : Sig) : Prop where
  /-- injected parameters come last and are implicit -/
  injLast : ∃ injected, s.params = visible s ++ injected ∧ ∀ p ∈ injected, p.impl = true ∧ p.inj = true
  /-- parameters have names, all different -/
  named : ∀ p ∈ visible s, p.name ≠ ""
  distinct : (s.params.map (·.name)).Nodup
  min_le : s.min ≤ (visible s).length
  max_eq : s.max = (visible s).length
  min_eq : s.min = ((visible s).filter Required).length ∨
    (s.isType = true ∧ s.min = 1 ∧ ((visible s).filter Required).length = 0)
  noRest : s.rest1b = 0
  /-- constructors have no injected parameters, and `T()` is not a call unless `T` has no members -/
  typeParams : s.isType = true → s.params = visible s ∧ (visible s ≠ [] → 1 ≤ s.min)

/-- Required parameters come first. -/
def RequiredFirst (s : Sig) : Prop :=
  ∃ req opt, visible s = req ++ opt ∧ (∀ p ∈ req, Required p = true) ∧ (∀ p ∈ opt, Required p = false)

/-- Only named arguments can be optional, as the grammar has it. -/
def WellFormedArgs (args : List Arg) : Prop := ∀ a ∈ args, a.opt = true → a.name ≠ ""

/-- The call builds a value: it is not the zero-initialisation `T()` of a type. -/
def Builds (s : Sig) (args : List Arg) : Prop := s.isType = true → args ≠ []

end Verif.CallArgs.Spec
