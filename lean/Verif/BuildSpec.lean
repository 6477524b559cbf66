import Verif.Basic
/-!
# Specification: what a compiled unit depends on

The object file of a translation unit is determined by the compiler's options, the unit's text, and the texts of the headers it
includes, directly or not: a tree.
-/
namespace Verif.Build
open Verif

/-- A header with the headers it includes, in the order of its `#include`s; `sys` is a system header, taken as immutable. -/
inductive Tree where
  | sys
  | node (text : Str) (kids : List Tree)

/-- How `#include`s are found in a text and where they lead: from the including file to a file, or to a system header (`none`). -/
structure Lang where
  scan : Str → List Str
  target : Str → Str → Option Str

/-- The tree below a file, if it has one of depth at most `n`: no file is missing and the includes are not circular. -/
def tree (L : Lang) (fs : Str → Option Str) : Nat → Str → Option Tree
  | 0, _ => none
  | n + 1, p =>
    match fs p with
    | none => none
    | some text =>
      ((L.scan text).mapM fun i => match L.target p i with
        | none => some Tree.sys
        | some q => tree L fs n q).map (Tree.node text)

/-- The trees of several includes made by the file `p`. -/
def trees (L : Lang) (fs : Str → Option Str) (n : Nat) (p : Str) (incs : List Str) : Option (List Tree) :=
  incs.mapM fun i => match L.target p i with
    | none => some Tree.sys
    | some q => tree L fs n q

/-! ## The directives in a text -/

/-- What follows `#include`: blanks, then a name in quotes or angle brackets without blanks in it. -/
inductive Directive : Str → Str → Prop
  | quoted (blank f rest : Str) (hb : ∀ c ∈ blank, c.toNat ≤ 32) (hf : ∀ c ∈ f, 32 < c.toNat ∧ c ≠ ch '"')
      (h : 0 < f.length + rest.length) : Directive (blank ++ ch '"' :: f ++ ch '"' :: rest) (ch '"' :: f ++ [ch '"'])
  | angled (blank f rest : Str) (hb : ∀ c ∈ blank, c.toNat ≤ 32) (hf : ∀ c ∈ f, 32 < c.toNat ∧ c ≠ ch '>')
      (h : 0 < f.length + rest.length) : Directive (blank ++ ch '<' :: f ++ ch '>' :: rest) (ch '<' :: f ++ [ch '>'])

end Verif.Build
