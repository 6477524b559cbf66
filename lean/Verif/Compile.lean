import Verif.CompileSpec
/-!
# Model of `src/compiler.fu` and the module list of `src/context.fu`

Modules, the discovery of dependencies, the order of compilation, and the bookkeeping of watch mode.  Files are read through
`getFile`, whose cache lives as long as one build: during a build the content of a file is fixed (`fs`).
-/
namespace Verif.Compile
open Verif

/-- src/module.fu:34-45 `Module`, without statistics; its number `modid` is its position in the list.  `inp` is `module.in`:
the source and the imports with their module numbers (0: not known yet).  `order` 0 is a missing `module.order`.
Simplification: `module.in` and `module.out` count as set when they were assigned (in fu: when they are not all zeroes). -/
structure Mod (Out : Type) where
  fname : Str
  inp : Option (Str × List (Str × Nat))
  order : Nat
  out : Option Out

/-- src/module.fu:26 `ctx.modules`. -/
abbrev St (Out : Type) := List (Mod Out)

variable {Out : Type} (X : Front Out) (fs : Files)

/-- src/compiler.fu:125-132 `clear`, and a module as `getModule` creates it. -/
def blank (fname : Str) : Mod Out := { fname, inp := none, order := 0, out := none }

/-- src/context.fu:163-174 `getModule(fname)`: its number; it is added if there is none. -/
def getModule (st : St Out) (f : Str) : St Out × Nat :=
  match st.findIdx? (fun m => decide (m.fname = f)) with
  | some i => (st, i)
  | none => (st ++ [blank f], st.length)

/-- src/compiler.fu:88-110: the loop over the imports of one file; `rec` is `compile_lexParseDeps`.  `depth` is
`module.order.dep_depth`, `done` the imports with their module numbers. -/
def imports (rec : St Out → Str → St Out × Except Err (Nat × Nat)) (f : Str) :
    List Str → St Out → Nat → List (Str × Nat) → St Out × Except Err (Nat × List (Str × Nat))
  | [], st, depth, done => (st, .ok (depth, done))
  | p :: ps, st, depth, done =>
    match rec st (X.resolve fs f p) with
    | (st, .error e) => (st, .error e)
    | (st, .ok (modid, order)) =>
      if modid = 0 then (st, .error .bug)
      else imports rec f ps st (if depth ≤ order then order + 1 else depth) (done ++ [(p, modid)])

/-- src/compiler.fu:14-120 `compile_lexParseDeps(fname)`: the module's number and order.  `setModule` (src/context.fu:176-183)
is an assignment to the list.  The first argument bounds the depth of the recursion. -/
def deps : Nat → St Out → Str → St Out × Except Err (Nat × Nat)
  | 0, st, _ => (st, .error .fuel)
  | n + 1, st0, f =>
    let (st, i) := getModule st0 f
    match st[i]? with
    | none => (st, .error .bug)
    | some m =>
      match m.inp with
      | some _ => if m.order ≠ 0 then (st, .ok (i, m.order)) else (st, .error .circle)
      | none =>
        if m.out.isSome then (st, .error .bug)
        else if fs f = [] then (st, .error .missing)
        else match X.parse f (fs f) with
          | .error e => (st, .error (.user e))
          | .ok pats =>
            let m := { m with inp := some (fs f, pats.map fun p => (p, 0)) }
            let st := st.set i m
            if m.order ≠ 0 then (st, .error .bug)
            else match imports X fs (deps n) f pats st 1 [] with
              | (st, .error e) => (st, .error e)
              | (st, .ok (depth, done)) =>
                let m := { m with inp := some (fs f, done), order := depth }
                (st.set i m, .ok (i, depth))

/-- src/compiler.fu:178-204 `compile_solveCodegen` for one module, reading the outputs of its imports from the module list
(src/solver.fu:10340-10370).  A module without input has no syntax tree: src/solver.fu:16042, 3524 (`BUG`). -/
def solveOne (st : St Out) (m : Mod Out) : Except Err Out :=
  match m.inp with
  | none => .error .bug
  | some (src, imps) =>
    match X.solve m.fname src (imps.map fun p => ((st[p.2]?).bind (·.out)).getD X.nothing) with
    | .ok o => .ok o
    | .error e => .error (.user e)

/-- src/compiler.fu:219-224: one step of the sorting loop: `dep_order.ensure(exists: order) ~= modid`. -/
def place (acc : List (List Nat)) (d i : Nat) : List (List Nat) :=
  (if acc.length ≤ d then acc ++ List.replicate (d + 1 - acc.length) [] else acc).modify d (· ++ [i])

/-- src/compiler.fu:217-225: the levels of `dep_order`; `i` is the number of the first module of the list. -/
def depOrder : St Out → Nat → List (List Nat) → List (List Nat)
  | [], _, acc => acc
  | m :: t, i, acc => depOrder t (i + 1) (place acc m.order i)

/-- src/compiler.fu:240-268: the parallel branch: every module of a level that has no output yet is compiled against the module
list as it was before the level; then the results are stored in order and the first error is kept. -/
def levelPar (st0 : St Out) : List Nat → St Out → Option Err → St Out × Option Err
  | [], st, err => (st, err)
  | i :: t, st, err =>
    match st0[i]? with
    | none => levelPar st0 t st err
    | some m =>
      if m.out.isSome then levelPar st0 t st err
      else match solveOne X st0 m with
        | .error e => levelPar st0 t st (if err.isSome then err else some e)
        | .ok o => levelPar st0 t (st.set i { m with out := some o }) err

/-- src/compiler.fu:274-283: the sequential branch, which stops at the first error. -/
def levelSeq : List Nat → St Out → St Out × Option Err
  | [], st => (st, none)
  | i :: t, st =>
    match st[i]? with
    | none => levelSeq t st
    | some m =>
      if m.out.isSome then levelSeq t st
      else match solveOne X st m with
        | .error e => (st, some e)
        | .ok o => levelSeq t (st.set i { m with out := some o })

/-- src/compiler.fu:230-285: the loop over the levels. -/
def levels (par : Bool) : List (List Nat) → St Out → St Out × Except Err Unit
  | [], st => (st, .ok ())
  | l :: t, st =>
    match (if par then levelPar X st l st none else levelSeq X l st) with
    | (st, some e) => (st, .error e)
    | (st, none) => levels par t st

/-- src/compiler.fu:209-287 `compile(ctx, options, fname)`; `par` is `options.dev & DEV_Parallel`. -/
def compile (fuel : Nat) (par : Bool) (st : St Out) (f : Str) : St Out × Except Err Unit :=
  match deps X fs fuel st f with
  | (st, .error e) => (st, .error e)
  | (st, .ok _) => levels X par (depOrder st 0 []) st

/-! ## Watch mode -/

/-- src/compiler.fu:523-547 with src/context.fu:188-193 `updateFile`: modules whose file has another content than
in the previous build are cleared.  (The previous contents are the cache of the previous build, which has every module's file.)
Module 0 is the prelude and is skipped (134-136 `eachButPrelude`). -/
def changed (old new : Files) (st : St Out) : St Out :=
  st.mapIdx fun i m => if i ≠ 0 ∧ old m.fname ≠ new m.fname then blank m.fname else m

/-- src/compiler.fu:142-150: the first pass of `watch_pruneModules`: modules without output are cleared, and their numbers
collected. -/
def unfinished : St Out → Nat → List Nat
  | [], _ => []
  | m :: t, i => if i ≠ 0 ∧ m.out.isNone then i :: unfinished t (i + 1) else unfinished t (i + 1)

def clearUnfinished (st : St Out) : St Out :=
  st.mapIdx fun i m => if i ≠ 0 ∧ m.out.isNone then blank m.fname else m

/-- src/compiler.fu:158-172: one round over the modules from number `i` on: a module that imports an invalid one is cleared and
becomes invalid. -/
def spread : Nat → Nat → St Out → List Nat → Bool → St Out × List Nat × Bool
  | 0, _, st, invalid, rep => (st, invalid, rep)
  | n + 1, i, st, invalid, rep =>
    match st[i]? with
    | none => (st, invalid, rep)
    | some m =>
      if ((m.inp.map (·.2)).getD []).any (fun p => decide (p.2 ∈ invalid)) then
        spread n (i + 1) (st.set i (blank m.fname)) (i :: invalid) true
      else spread n (i + 1) st invalid rep

/-- src/compiler.fu:155-177: rounds until nothing changes; the first argument bounds their number. -/
def rounds : Nat → St Out → List Nat → Option (St Out)
  | 0, _, _ => none
  | n + 1, st, invalid =>
    match spread (st.length - 1) 1 st invalid false with
    | (st, invalid, rep) => if rep then rounds n st invalid else some st

/-- src/compiler.fu:138-178 `watch_pruneModules`. -/
def prune (st : St Out) : Option (St Out) :=
  let invalid := unfinished st 0
  let st := clearUnfinished st
  if invalid ≠ [] then rounds (st.length + 1) st invalid else some st

/-- src/compiler.fu:425-470 `recompile` in watch mode, up to the build: prune, then compile; an error is printed and the module
list stays as the failed compilation left it. -/
def recompile (fuel : Nat) (par : Bool) (st : St Out) (f : Str) : Option (St Out × Except Err Unit) := do
  let st ← prune st
  some (compile X fs fuel par st f)

end Verif.Compile
