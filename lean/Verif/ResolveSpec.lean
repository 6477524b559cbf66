import Verif.Basic
/-!
# Specification: which file an import stands for

An import `name` written in a file of the directory `dir` (ending with a slash).  The rules, from the comments of
src/context.fu:72-83: a module `n` is in `n.fu` or in `n/n.fu`, an item `i` of it may be in `n/i.fu`; a file is looked for in the
importing directory, then in its parents, then in the library.
-/
namespace Verif.Resolve
open Verif

/-- The ways to cut a path after a slash that is not its last byte, the longest first: the parents of a directory. -/
def parents : Str → List Str
  | [] => []
  | c :: t => (parents t).map (c :: ·) ++ if c = ch '/' ∧ t ≠ [] then [[c]] else []

/-- The places where the file `name` is looked for. -/
def places (fudir dir name : Str) : List Str :=
  (dir :: parents dir).map (· ++ name) ++ if fudir.getLast? = some (ch '/') then [fudir ++ str "lib/" ++ name] else []

/-- The first of these places where there is a file. -/
def search (exist : Str → Bool) (fudir dir name : Str) : Option Str := (places fudir dir name).find? exist

/-- The part after the last slash. -/
def lastPart : Str → Str
  | [] => []
  | c :: t => if c = ch '/' then lastPart t else if ch '/' ∈ t then lastPart t else c :: t

/-- The names of files to look for, for the module `base` and perhaps an item of it. -/
def fileNames (base : Str) (item : Option Str) : List Str :=
  [base ++ str ".fu", base ++ str "/" ++ lastPart base ++ str ".fu"] ++
  match item with
  | some i => [base ++ str "/" ++ i ++ str ".fu"]
  | none => []

/-- The first of several names that is found anywhere. -/
def firstOf (exist : Str → Bool) (fudir dir : Str) (names : List Str) : Option Str :=
  names.findSome? (search exist fudir dir)

/-- What is written after `import` and the files it asks for: a file name, a module, or a module and an item (with a tab in
between). -/
inductive Asks : Str → List Str → Prop
  | file (raw : Str) (h : str ".fu" <:+ raw) : Asks raw [raw]
  | module (base : Str) (hne : base ≠ []) (h : ¬ str ".fu" <:+ base) (ht : ch '\t' ∉ base) : Asks base (fileNames base none)
  | item (base i : Str) (hne : base ≠ []) (hi : i ≠ []) (h : ¬ str ".fu" <:+ base ++ ch '\t' :: i) (ht : ch '\t' ∉ base) (ht' : ch '\t' ∉ i) :
      Asks (base ++ ch '\t' :: i) (fileNames base (some i))

end Verif.Resolve
