import Verif.Basic
/-!
# Specification: what compiling a program means

A program is a file with everything it imports.  Independent of `src/compiler.fu`: no module list, no order, no caches.
-/
namespace Verif.Compile
open Verif

/-- The parts of the compiler that work on one file.  They are parameters: every theorem holds for all of them.
* `parse f src` - lexing and parsing the file `f` with the content `src`: its import patterns, or an error;
* `resolve fs f pat` - the file that the pattern `pat` in `f` stands for, which may depend on the files there are;
* `solve f src outs` - checking and translating `f`, given the outputs of its imports;
* `nothing` - an output with nothing in it. -/
structure Front (Out : Type) where
  parse : Str → Str → Except Str (List Str)
  resolve : (Str → Str) → Str → Str → Str
  solve : Str → Str → List Out → Except Str Out
  nothing : Out

/-- The files on disk; a file that is missing has no content (and an empty file is treated like a missing one). -/
abbrev Files := Str → Str

variable {Out : Type}

/-- `f` imports `g`. -/
def Imports (X : Front Out) (fs : Files) (f g : Str) : Prop :=
  fs f ≠ [] ∧ ∃ pats, X.parse f (fs f) = .ok pats ∧ ∃ p ∈ pats, g = X.resolve fs f p

/-- `g` is `f` or is imported by it, directly or not. -/
inductive Reach (X : Front Out) (fs : Files) : Str → Str → Prop
  | refl (f) : Reach X fs f f
  | step {f g h} : Imports X fs f g → Reach X fs g h → Reach X fs f h

/-- `f` compiles to `o`: it exists and parses, each import compiles to an output, and checking `f` against these outputs
gives `o`.  Being inductive, nothing that lies on or leads to an import circle compiles. -/
inductive Means (X : Front Out) (fs : Files) : Str → Out → Prop
  | mk (f : Str) (pats : List Str) (outs : List Out) (o : Out) (hne : fs f ≠ []) (hp : X.parse f (fs f) = .ok pats)
      (hlen : outs.length = pats.length)
      (hi : ∀ k (h : k < pats.length), Means X fs (X.resolve fs f pats[k]) (outs[k]'(by omega)))
      (hs : X.solve f (fs f) outs = .ok o) : Means X fs f o

/-- Errors: an import circle, a missing file, a failed internal check, an error of the front end, and the bound on the depth
of recursion (which is never reached, see `compile_terminates`). -/
inductive Err where
  | circle | missing | bug | user (e : Str) | fuel
  deriving DecidableEq

/-- The reasons there can be for an error when `f` is compiled.  `prel` is the name of the built-in module: it cannot be imported. -/
inductive Fault (X : Front Out) (fs : Files) (prel f : Str) : Err → Prop
  | circle (g h : Str) (hr : Reach X fs f g) (hi : Imports X fs g h) (hb : Reach X fs h g) : Fault X fs prel f .circle
  | prelude (hr : Reach X fs f prel) : Fault X fs prel f .circle
  | missing (g : Str) (hr : Reach X fs f g) (he : fs g = []) : Fault X fs prel f .missing
  | parse (g : Str) (e : Str) (hr : Reach X fs f g) (hne : fs g ≠ []) (he : X.parse g (fs g) = .error e) : Fault X fs prel f (.user e)
  | check (g : Str) (pats : List Str) (outs : List Out) (e : Str) (hr : Reach X fs f g) (hne : fs g ≠ [])
      (hp : X.parse g (fs g) = .ok pats) (hlen : outs.length = pats.length)
      (hi : ∀ k (h : k < pats.length), Means X fs (X.resolve fs g pats[k]) (outs[k]'(by omega)))
      (he : X.solve g (fs g) outs = .error e) : Fault X fs prel f (.user e)

end Verif.Compile
