/-!
# Model: which argument of a call goes to which parameter

`src/parser.fu` `parseArgsDecl` (the order of declared parameters), `src/solver.fu` `doUpdateScope` (arity of a
function), `solveStruct` (arity of a constructor), `collectNamedArgs`, `reorderByNumUsings`, `reorderByArgIDs`,
the argument part of `tryMatchCall`, and `CallerNode`.

Simplifications common to the file: `-1` in `Reorder.map` is `none`; counters are natural numbers (an argument list
has far fewer than `2^31` items); types are abstract: whether an argument fits a parameter and whether some `using`
in scope can supply a parameter are answered by the two functions of `Types`.
-/
namespace Verif.CallArgs

/-- The outcome of a piece of the compiler: a value, a diagnostic (the overload is not chosen, or the source is
rejected), or an internal error: `BUG(..)` or an index out of range. -/
inductive R (α : Type) where
  | ok (a : α)
  | fail
  | bug
deriving DecidableEq, Repr

/-- `Argument` of `src/module.fu` 330-350: the fields the binding of arguments looks at. `name` is the outer name,
`dflt` is "has a default expression", `impl` is `F_IMPLICIT`, `inj` is `F_INJECTED`, `must` is `F_MUSTNAME`
(written `name!`), `rest` is `F_REST_ARG` (written `name[]`). -/
structure Param where
  name : String
  dflt : Bool := false
  impl : Bool := false
  inj : Bool := false
  must : Bool := false
  rest : Bool := false
deriving DecidableEq, Repr

/-- An argument at the call site: its name, empty when positional (`argid` nodes carry a name, `src/solver.fu`
2166-2168), and whether it is written `name?: value` (`F_ARGID_IS_OPTIONAL`). -/
structure Arg where
  name : String := ""
  opt : Bool := false
deriving DecidableEq, Repr

/-- The part of `Extended` (`src/module.fu` 350-360) the binding of arguments looks at; `isType` is
`kind == "type"`. -/
structure Sig where
  params : List Param
  min : Nat
  max : Nat
  rest1b : Nat := 0
  isType : Bool := false
deriving DecidableEq, Repr

/-! ## Declarations -/

/-- `list.insert(i, x)`: an assertion fails when `i` is past the end (`include/fu/vec.h` `insert`). -/
def insertAt (l : List Param) (i : Nat) (x : Param) : R (List Param) :=
  if i ≤ l.length then .ok (l.take i ++ x :: l.drop i) else .bug

/-- The loop of `parseArgsDecl`, `src/parser.fu` 1494-1562, on the parameters in the order written; `firstDefaulted`
is `none` for `-1`. The syntax of a parameter and the `F_TEMPLATE`/`F_INLINE` flags are left out. -/
def declLoop : List Param → List Param → List Param → Option Nat → R (List Param × List Param)
  | [], out, implicit, _ => .ok (out, implicit)
  | p :: ps, out, implicit, fd =>
    if p.dflt then
      if p.impl then .fail
      else declLoop ps (out ++ [p]) implicit (some (fd.getD out.length))
    else
      match fd with
      | some k =>
        if !p.must then .fail
        else if p.impl then declLoop ps out (implicit ++ [p]) (some (k + 1))
        else
          match insertAt out k p with
          | .ok out => declLoop ps out implicit (some (k + 1))
          | .fail => .fail
          | .bug => .bug
      | none =>
        if p.impl then declLoop ps out (implicit ++ [p]) none
        else declLoop ps (out ++ [p]) implicit none

/-- `parseArgsDecl`, `src/parser.fu` 1483-1570: implicit parameters always come last. -/
def parseArgsDecl (ps : List Param) : R (List Param) :=
  match declLoop ps [] [] none with
  | .ok (out, implicit) => .ok (out ++ implicit)
  | .fail => .fail
  | .bug => .bug

/-- `0x7fffffff.i32`. -/
def noMax : Nat := 2147483647

/-- The loop of `doUpdateScope`, `src/solver.fu` 7860-8050: `min`, `max` and `rest_1b`; `i` is `args.len`. -/
def arityLoop : List Param → Nat → Nat → Nat → Nat → R (Nat × Nat × Nat)
  | [], _, min, max, rest1b => .ok (min, max, rest1b)
  | p :: ps, i, min, max, rest1b =>
    let max := if !p.inj then (if max ≠ noMax then max + 1 else max) else max
    let min := if !p.inj && (!p.dflt && !p.impl) then min + 1 else min
    if p.rest then
      if rest1b ≠ 0 then .bug
      else arityLoop ps (i + 1) min noMax (i + 1)
    else arityLoop ps (i + 1) min max rest1b

/-- The signature `doUpdateScope` stores, `src/solver.fu` 8170-8180. -/
def fnSig (ps : List Param) : R Sig :=
  match arityLoop ps 0 0 0 0 with
  | .ok (min, max, rest1b) => .ok { params := ps, min, max, rest1b }
  | .fail => .fail
  | .bug => .bug

/-- A function as the user declares it, with the implicit parameters injected by the solver at the end
(`src/solver.fu` 11243 sets `F_INJECTED | F_IMPLICIT`, 8326-8400 sorts them after the declared ones). -/
def declare (ps injected : List Param) : R Sig :=
  match parseArgsDecl ps with
  | .ok out => fnSig (out ++ injected)
  | .fail => .fail
  | .bug => .bug

/-- The constructor `solveStruct` adds, `src/solver.fu` 9139-9192, for the members of a struct. Unions, where only the
first member is an argument, and primitive declarations are left out. -/
def typeSig (members : List Param) : Sig :=
  let min := (members.filter fun m => !m.dflt).length
  let max := members.length
  { params := members, min := if max ≠ 0 ∧ min = 0 then min + 1 else min, max, isType := true }

/-! ## Matching arguments to parameters -/

/-- `names.find(x)`: the first index, `none` for `-1`. -/
def find : List String → String → Option Nat
  | [], _ => none
  | n :: ns, x => if n = x then some 0 else (find ns x).map (· + 1)

/-- `struct Reorder`, `src/solver.fu` 638-641: `none` when not applicable. -/
abbrev Reorder := Option (List (Option Nat))

/-- `reorderByNumUsings`, `src/solver.fu` 1934-1951. -/
def reorderByNumUsings (hostLen numArgs numUsings : Nat) : Reorder :=
  if numUsings = 0 then none
  else
    let map := (List.range hostLen).map fun i =>
      if numUsings ≤ i ∧ i - numUsings < numArgs then some (i - numUsings) else none
    if map = [] then none else some map

/-- The inner loop of `reorderByArgIDs`, `src/solver.fu` 1991-1999: the next positional argument at or after `i`, and
the new `offset`. -/
def scan : List String → Nat → Option Nat × Nat
  | [], i => (none, i)
  | n :: ns, i => if n = "" then (some i, i + 1) else scan ns (i + 1)

/-- The variables of `reorderByArgIDs`, `src/solver.fu` 1958-1966. `optional` is the list of members of the bit set. -/
structure St where
  map : List (Option Nat)
  used : Nat
  offset : Nat
  usingsLeft : Nat
  required : Nat
  boundOptional : Nat
  optional : List Nat

/-- One turn of the loop of `reorderByArgIDs`, `src/solver.fu` 1968-2013. -/
def step (names : List String) (st : St) (p : Param) : St :=
  if p.inj then st
  else
    let count (idx : Option Nat) (st : St) : St :=
      let st := { st with map := st.map ++ [idx] }
      if !(p.dflt || p.impl) then { st with required := st.required + 1 }
      else if idx.isSome then { st with boundOptional := st.boundOptional + 1 }
      else st
    match find names p.name with
    | some idx => count (some idx) { st with used := st.used + 1, optional := st.optional.filter (· ≠ idx) }
    | none =>
      if 0 < st.usingsLeft then count none { st with usingsLeft := st.usingsLeft - 1 }
      else
        let (idx, offset) := scan (names.drop st.offset) st.offset
        count idx { st with offset }

/-- The two counting loops of `reorderByArgIDs`, `src/solver.fu` 2037-2050, on the map in reverse: trailing misses and
the misses before the last hit. -/
def misses : List (Option Nat) → Nat × Nat
  | [] => (0, 0)
  | some _ :: m => (0, (m.filter (·.isNone)).length)
  | none :: m => ((misses m).1 + 1, (misses m).2)

/-- "Drop trailing misses", `src/solver.fu` 2032-2061. -/
def dropMisses (map : List (Option Nat)) (numUsings : Nat) : List (Option Nat) :=
  let trailing := (misses map.reverse).1
  let nonTrailing := (misses map.reverse).2
  let trailingUsings := numUsings - nonTrailing
  if trailingUsings < trailing then map.take (map.length - (trailing - trailingUsings)) else map

/-- "See if needed", `src/solver.fu` 2063-2073. -/
def ifNeeded (map : List (Option Nat)) (numNames : Nat) : Reorder :=
  if map.length ≠ numNames then some map
  else if map ≠ (List.range map.length).map some then some map
  else none

/-- `reorderByArgIDs`, `src/solver.fu` 1953-2074; `.fail` is `return false`. -/
def reorderByArgIDs (names : List String) (optional : List Nat) (host : List Param) (numUsings : Nat) : R Reorder :=
  let st := host.foldl (step names) ⟨[], 0, 0, numUsings, 0, 0, optional⟩
  if names.length + numUsings < st.boundOptional + st.required then .fail
  else if st.usingsLeft ≠ 0 then .bug
  else if st.used ≠ names.length ∧
      st.used + (names.filter (· = "")).length + st.optional.length ≠ names.length then .fail
  else .ok (ifNeeded (dropMisses st.map numUsings) names.length)

/-- What the types say: does argument `j` fit parameter `i`, by itself, by a literal retype, a conversion or an
autocall (`src/solver.fu` 2510-2682); can a `using` in scope supply parameter `i` (2489-2505). -/
structure Types where
  fits : Nat → Nat → Bool
  supplies : Nat → Bool

/-- `findRestStart`, `src/solver.fu` 2149-2152. -/
def restStart (s : Sig) : Nat := if s.rest1b ≠ 0 then s.rest1b - 1 else s.params.length

/-- The rest-argument patch of `tryMatchCall`, `src/solver.fu` 2425-2431; the loop over `i < args.len`. -/
def restPatch (args : List Arg) : List Nat → List (Option Nat) → List (Option Nat)
  | [], map => map
  | i :: is, map =>
    match args[i]? with
    | some a => restPatch args is (if !a.opt && !map.contains (some i) then map ++ [some i] else map)
    | none => restPatch args is map

/-- One turn of the loop over parameters of `tryMatchCall`, `src/solver.fu` 2469-2682, for position `i`:
`.ok true` when a `using` supplies the parameter (`conversions.ensure(exists: i) = conversion`). -/
def matchOne (t : Types) (s : Sig) (args : List Arg) (reorder : Reorder) (i : Nat) : R Bool :=
  match s.params[if restStart s ≤ i then restStart s else i]? with
  | none => .bug
  | some p =>
    let given (j : Nat) : R Bool :=
      match args[j]? with
      | none => .bug
      | some a => if p.must && a.name == "" then .fail else if t.fits i j then .ok false else .fail
    let absent : R Bool :=
      if p.dflt || p.impl then .ok false
      else if !p.must && t.supplies i then .ok true
      else .fail
    match reorder with
    | some map =>
      match map[i]? with
      | none => .bug
      | some (some j) => given j
      | some none => absent
    | none => if i < args.length then given i else absent

/-- The loop over parameters: the positions supplied by a `using`. -/
def matchLoop (t : Types) (s : Sig) (args : List Arg) (reorder : Reorder) : List Nat → R (List Nat)
  | [] => .ok []
  | i :: is =>
    match matchOne t s args reorder i with
    | .ok u =>
      match matchLoop t s args reorder is with
      | .ok us => .ok (if u then i :: us else us)
      | .fail => .fail
      | .bug => .bug
    | .fail => .fail
    | .bug => .bug

/-- The loop over rest arguments, `src/solver.fu` 2685-2704: `args[callsiteIndex]` is out of range when the index is
`-1`. The common supertype of the items is left out. -/
def restLoop (args : List Arg) (reorder : Reorder) : List Nat → R Unit
  | [] => .ok ()
  | i :: is =>
    match (match reorder with | some map => (map[i]?).join | none => some i) with
    | some j => if j < args.length then restLoop args reorder is else .bug
    | none => .bug

/-- What `tryMatchCall` hands to `CallerNode`: `reorder` and the positions with a `using`. -/
structure Match where
  reorder : Reorder
  usings : List Nat
deriving DecidableEq, Repr

/-- `collectNamedArgs`, `src/solver.fu` 2154-2178, called when some argument is named
(`F_CALL_HAS_NAMED_ARGS`); no names otherwise. -/
def collectNames (args : List Arg) : List String :=
  if args.any (fun a => a.name != "") then args.map (·.name) else []

/-- `collectNamedArgs`: the bit set of optional arguments. -/
def collectOptional (args : List Arg) : List Nat :=
  (List.range args.length).filter fun i => match args[i]? with | some a => a.opt | none => false

/-- The two loops of `tryMatchCall` over parameters, `src/solver.fu` 2467-2704. -/
def matchLoops (t : Types) (s : Sig) (args : List Arg) (reorder : Reorder) (n : Nat) : R Match :=
  match matchLoop t s args reorder (List.range n) with
  | .fail => .fail
  | .bug => .bug
  | .ok us =>
    match restLoop args reorder ((List.range n).drop (restStart s)) with
    | .ok _ => .ok ⟨reorder, us⟩
    | .fail => .fail
    | .bug => .bug

/-- The part of `tryMatchCall` after the reordering, `src/solver.fu` 2434-2704. -/
def matchArgs (t : Types) (s : Sig) (args : List Arg) (isZeroInit : Bool) (reorder : Reorder) : R Match :=
  let rs := restStart s
  let optional := collectOptional args
  let reorder := match reorder with
    | some map => some (if rs < s.params.length ∧ map.length < args.length
        then restPatch args (List.range args.length) map else map)
    | none => none
  let restMin := match s.params[rs]? with
    | some p => if !p.dflt then rs + 1 else rs
    | none => rs
  let ambiguous := match reorder with
    | some map => decide (optional ≠ []) && decide (map.length < args.length)
        && decide (map.length < Nat.min s.max restMin)
    | none => false
  if ambiguous then .fail
  else
    let len := match reorder with | some map => map.length | none => args.length
    let n := Nat.max len (if isZeroInit then 0 else s.min)
    let short := match reorder with
      | some map => decide (map.length < args.length) && decide (optional = [])
      | none => false
    if n ≠ 0 ∧ short = true then .bug
    else
      matchLoops t s args reorder n

/-- `tryMatchCall` for one overload, `src/solver.fu` 2200-2210 and 2366-2704; `numUsings` is the number of `using`
declarations in scope. -/
def matchCall (t : Types) (s : Sig) (args : List Arg) (numUsings : Nat) : R Match :=
  let names := collectNames args
  let optional := collectOptional args
  let minArity := args.length - optional.length
  let maxArity := args.length + numUsings
  let isZeroInit := s.isType && args.isEmpty
  if !isZeroInit && (decide (s.max < minArity) || decide (maxArity < s.min)) then .fail
  else
    let nu := if !isZeroInit then s.min - args.length else 0
    if names = [] then matchArgs t s args isZeroInit (reorderByNumUsings s.params.length args.length nu)
    else
      match reorderByArgIDs names optional s.params nu with
      | .fail => .fail
      | .bug => .bug
      | .ok reorder => matchArgs t s args isZeroInit reorder

/-! ## Building the call -/

/-- What is in a parameter's place while `CallerNode` works: nothing yet, the `j`-th argument, the expression of a
`using`, the array of a rest parameter, the default, the implicit in scope. -/
inductive Slot where
  | empty
  | given (j : Nat)
  | using_
  | rest (items : List Slot)
  | dflt
  | implicit
deriving Repr

/-- The reordering loop of `CallerNode`, `src/solver.fu` 12604-12620: `steal(args[idx])`. -/
def stealLoop : List (Option Nat) → List Slot → R (List Slot)
  | [], _ => .ok []
  | none :: m, args =>
    match stealLoop m args with
    | .ok out => .ok (.empty :: out)
    | r => r
  | some j :: m, args =>
    match args[j]? with
    | none => .bug
    | some a =>
      match stealLoop m (args.set j .empty) with
      | .ok out => .ok (a :: out)
      | r => r

/-- "`using` codegen", `src/solver.fu` 12622-12637. Conversions that never return are left out. -/
def convert : List Nat → List Slot → R (List Slot)
  | [], args => .ok args
  | i :: is, args => if i < args.length then convert is (args.set i .using_) else .bug

/-- "Rest params", `src/solver.fu` 12639-12653. -/
def gather (rs : Nat) (args : List Slot) : List Slot :=
  if rs < args.length then args.take rs ++ [.rest (args.drop rs)] else args

/-- `args.resize(n)`. -/
def resize (args : List Slot) (n : Nat) : List Slot := args.take n ++ List.replicate (n - args.length) .empty

/-- "Defaults & implicit argument injection" for one parameter, `src/solver.fu` 12668-12695. A default of the template
(`spec_of_args`) counts as a default of the parameter. -/
def fillOne (p : Param) : Slot → R Slot
  | .empty => if p.dflt then .ok .dflt else if p.impl then .ok .implicit else .bug
  | a => .ok a

/-- "Defaults & implicit argument injection", `src/solver.fu` 12660-12735. The order of evaluation and the dead code
elimination are left out. -/
def fill : List Param → List Slot → R (List Slot)
  | p :: ps, a :: as =>
    match fillOne p a with
    | .ok a =>
      match fill ps as with
      | .ok as => .ok (a :: as)
      | r => r
    | .fail => .fail
    | .bug => .bug
  | _, _ => .ok []

/-- "Do reorder", `src/solver.fu` 12604-12620. -/
def place (reorder : Reorder) (args : List Slot) : R (List Slot) :=
  match reorder with
  | some map => stealLoop map args
  | none => .ok args

/-- `CallerNode`, `src/solver.fu` 12597-12735: what each parameter of the chosen overload gets. -/
def callerNode (s : Sig) (numArgs : Nat) (m : Match) : R (List Slot) :=
  let args := (List.range numArgs).map Slot.given
  match place m.reorder args with
  | .fail => .fail
  | .bug => .bug
  | .ok args =>
    match convert m.usings args with
    | .fail => .fail
    | .bug => .bug
    | .ok args =>
      let args := gather (restStart s) args
      if s.isType && args.isEmpty then .ok []
      else fill s.params (resize args s.params.length)

/-- A call to one overload: `tryMatchCall` and then `CallerNode` (`src/solver.fu` 10993-11000). -/
def call (t : Types) (s : Sig) (args : List Arg) (numUsings : Nat) : R (List Slot) :=
  match matchCall t s args numUsings with
  | .ok m => callerNode s args.length m
  | .fail => .fail
  | .bug => .bug

end Verif.CallArgs
