import Verif.SpecCacheKey
/-! # C96: what the cache of template instances should do

The solver is represented by what it would decide for a template and a list of argument types if there were no cache. -/
namespace Verif.SpecCache
open Verif

/-- what the solver decides without a cache -/
structure Solver where
  /-- does the template accept arguments of these types? -/
  ok : Tmpl → List Slot → Bool
  /-- is the body `__native`, so that the signature goes out once? -/
  native : Tmpl → List Slot → Bool
  /-- the argument types of the instance before its body is solved -/
  first : Tmpl → List Slot → List Slot
  /-- the argument types the instance ends up with -/
  fin : Tmpl → List Slot → List Slot

/-- what is assumed of the solver: an instance accepts arguments of its own types, and specializing for those gives the same
instance again -/
structure Solver.Laws (S : Solver) : Prop where
  blank : ∀ t, S.ok t [none] = S.ok t [] ∧ S.fin t [none] = S.fin t []
  first_ok : ∀ t l, S.ok t l = true → S.ok t (S.first t l) = true ∧ S.fin t (S.first t l) = S.fin t l
  fin_ok : ∀ t l, S.ok t l = true → S.ok t (S.fin t l) = true ∧ S.fin t (S.fin t l) = S.fin t l
  once : ∀ t l, S.native t l = true → S.fin t l = S.first t l

/-- the event is one that solver would cause in that state. A call without literals (`lit = false`) is specialized for the
very types it is looked up under. -/
def Agrees (S : Solver) (st : State) : Ev → Prop
  | .call _ _ slots _ _ mangle => OkSlots slots ∧ mangleTypes slots = .ok mangle
  | .match_ fixed ok => OkSlots fixed ∧ ∀ f rest, st.frames = f :: rest →
      (f.lit = false → fixed = f.call) ∧ (ok = false → S.ok f.tmpl fixed = false)
  | .reject => ∀ f rest, st.frames = f :: rest → S.ok f.tmpl f.made = false
  | .create => ∀ f rest, st.frames = f :: rest → S.ok f.tmpl f.made = true
  | .first sig native _ => OkSlots sig ∧ ∀ f rest, st.frames = f :: rest →
      sig = S.first f.tmpl f.made ∧ native = S.native f.tmpl f.made
  | .last sig _ => OkSlots sig ∧ ∀ f rest, st.frames = f :: rest →
      sig = S.fin f.tmpl f.made ∧ S.native f.tmpl f.made = false

/-- the states that histories caused by solver `S` lead to, all of whose steps satisfy `P` -/
inductive Reach (S : Solver) (P : State → Ev → Prop) : State → Prop where
  | init : Reach S P State.init
  | step {st st' : State} {e : Ev} : Reach S P st → Agrees S st e → P st e → step st e = .ok st' → Reach S P st'

/-- calls are made at any point -/
def Anywhere (_ : State) (_ : Ev) : Prop := True

/-- calls are made at the top level and from bodies being solved, not while an instance is still being matched or its
signature has not gone out yet; and the signature of a new instance does go out (nothing marks it dirty before that) -/
def FromBodies (st : State) : Ev → Prop
  | .call .. => ∀ f ∈ st.frames, f.phase = .solving
  | .first _ _ dirty => dirty = false
  | _ => True

/-- no call is made while an instance is being made -/
def OneByOne (st : State) : Ev → Prop
  | .call .. => st.frames = []
  | _ => True

/-- every signature is recorded: no instance was marked dirty -/
def NoDirty (_ : State) : Ev → Prop
  | .first _ _ dirty => dirty = false
  | .last _ dirty => dirty = false
  | _ => True

end Verif.SpecCache
