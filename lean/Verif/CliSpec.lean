import Verif.Cli

/-!
# C95: what the command line is to mean

Specification, after the text of `fu --help` (src/cli.fu 282-322): options, how they are written, and what is asked for.
-/

namespace Verif.Cli

/-- An option. -/
inductive O where
  /-- the directory of the sources -/
  | src (dir : Str)
  /-- emit C++, next to the sources or in a directory -/
  | cpp (dir : Option Str)
  | obj (dir : Option Str)
  | bin (file : Option Str)
  | scheme (s : Scheme)
  | run | watch | hotswap | shared | nocache | notest | test
deriving DecidableEq, Repr

/-- The letter that stands for it. -/
def O.letter : O → Option Byte
  | .cpp none => some (ch 'c')
  | .obj none => some (ch 'o')
  | .bin none => some (ch 'b')
  | .scheme .debug => some (ch 'd')
  | .run => some (ch 'r')
  | .watch => some (ch 'w')
  | .hotswap => some (ch 'h')
  | .test => some (ch 't')
  | _ => none

/-- The words that stand for it. -/
def O.words : O → Option (List Str)
  | .src p => some [str "--src", p]
  | .cpp (some p) => some [str "--cpp", p]
  | .obj (some p) => some [str "--obj", p]
  | .bin (some p) => some [str "--bin", p]
  | .scheme .debug => some [str "--debug"]
  | .scheme .reldeb => some [str "--reldeb"]
  | .scheme .retail => some [str "--retail"]
  | .run => some [str "--run"]
  | .watch => some [str "--watch"]
  | .hotswap => some [str "--hotswap"]
  | .shared => some [str "--shared"]
  | .nocache => some [str "--nocache"]
  | .notest => some [str "--notest"]
  | .test => some [str "--test"]
  | _ => none

/-- The path it comes with. -/
def O.path : O → Option Str
  | .src p | .cpp (some p) | .obj (some p) | .bin (some p) => some p
  | _ => none

/-- A path does not begin with a dash. -/
def IsPath (join : Str → Str) (p : Str) : Prop := p ≠ [] ∧ p.head? ≠ some (ch '-') ∧ join p ≠ []

/-- How options are written: as words, or as letters behind a dash, and letters can be put together. -/
inductive Written (join : Str → Str) : List O → List Str → Prop where
  | nil : Written join [] []
  | words {o : O} {w : List Str} {os : List O} {ws : List Str} : o.words = some w → (∀ p, o.path = some p → IsPath join p) →
      Written join os ws → Written join (o :: os) (w ++ ws)
  | letter {o : O} {c : Byte} {os : List O} {ws : List Str} : o.letter = some c → Written join os ws →
      Written join (o :: os) ([ch '-', c] :: ws)
  | together {o : O} {c : Byte} {w : Str} {os : List O} {ws : List Str} : o.letter = some c → w ≠ [] →
      Written join os ((ch '-' :: w) :: ws) → Written join (o :: os) ((ch '-' :: c :: w) :: ws)

/-- The directories asked for with each of the options that take one, and the schemes. -/
def srcs : List O → List Str := List.filterMap fun | .src p => some p | _ => none
def cpps : List O → List Str := List.filterMap fun | .cpp (some p) => some p | _ => none
def objs : List O → List Str := List.filterMap fun | .obj (some p) => some p | _ => none
def bins : List O → List Str := List.filterMap fun | .bin (some p) => some p | _ => none
def schemes : List O → List Scheme := List.filterMap fun | .scheme s => some s | _ => none

/-- Nothing is asked for twice, and not both for and against the tests. -/
def Consistent (os : List O) : Prop :=
  (srcs os).length ≤ 1 ∧ (cpps os).length ≤ 1 ∧ (objs os).length ≤ 1 ∧ (bins os).length ≤ 1 ∧ (schemes os).length ≤ 1
    ∧ ¬ (O.notest ∈ os ∧ O.test ∈ os)

/-- The sources: as asked for, else, if C++ is to be emitted, here. -/
def srcDir (join : Str → Str) (cwd : Str) (os : List O) : Str :=
  match srcs os with
  | p :: _ => join p
  | [] => if O.cpp none ∈ os ∨ cpps os ≠ [] then cwd else []

/-- What is asked for. -/
def asked (join : Str → Str) (cwd : Str) (os : List O) (file : Str) (cc ld : List Str) : Job where
  fname := join file
  bin := match bins os with
    | p :: _ => join p
    | [] => if O.bin none ∈ os then defaultBin (join file) else []
  src := srcDir join cwd os
  cpp := match cpps os with
    | p :: _ => join p
    | [] => if O.cpp none ∈ os then srcDir join cwd os else []
  obj := match objs os with
    | p :: _ => join p
    | [] => if O.obj none ∈ os then srcDir join cwd os else []
  scheme := (schemes os).head?
  run := decide (O.run ∈ os)
  watch := decide (O.watch ∈ os)
  hotswap := decide (O.hotswap ∈ os)
  shared := decide (O.shared ∈ os)
  nocache := decide (O.nocache ∈ os)
  notest := decide (O.notest ∈ os)
  test := decide (O.test ∈ os)
  cflags := cc
  libs := ld

/-- What can be passed on to the C++ compiler. -/
def Passable (w : Str) : Prop := w ≠ [] ∧ ¬ (str "--") <+: w

/-- `--cflags …`, or nothing. -/
def Passed (word : Str) (which : List Str) (ws : List Str) : Prop :=
  (which = [] ∧ ws = []) ∨ (ws = word :: which ∧ ∀ w ∈ which, Passable w)

end Verif.Cli
