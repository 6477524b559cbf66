/-!
# Conditionals: `&&`, `||`, `!` and `if`, and what the compiler makes of them

The solver replaces conditions whose value it knows (`src/solver.fu` 11377-11783), does so again when it inlines an expression
(12258-12353) and when it checks borrows (14431-14575). This file models the three, over trees in which everything that is not a
conditional, a block or a jump is left to an interpretation.

Simplified: a type is what the code below looks at, the rest of it is a number. `usage` is at its maximum or nothing where types are
joined. Conversions and the retyping of literals (`convertToSuperType`, `tryRetyping`) are left out: where the types of two
operands have no common type the model stops with an error. `is_AssumeNever_WhileSolvingRecursion` is left out: the nodes it is about
are solved again. `__litfix_bound` is a note for later passes and left out. `copy` stands for `move` too. `defer`, `let`, `try` and loops
are not modelled.
-/
namespace Verif.Fold

/-- The types the code knows by name, `src/types.fu` 46-78; `none` is the empty type. -/
inductive Canon where
  | none | void | never | zeroes | bool
  | other (n : Nat)
deriving DecidableEq, Repr

/-- A type, `src/module.fu` 355-402: `rel` is that some of it is used (`usage`), `ref` that it has a lifetime, `stat` that the lifetime has
static storage in it, `aT` and `aF` are `AlwaysTrue` and `AlwaysFalse`. -/
structure Ty where
  canon : Canon
  rel : Bool := true
  ref : Bool := false
  stat : Bool := false
  mutref : Bool := false
  aT : Bool := false
  aF : Bool := false
deriving DecidableEq, Repr

/-- `t_bool`, `src/types.fu` 46. -/
def tBool : Ty := { canon := .bool }
/-- `t_proposition`, `src/types.fu` 54. -/
def tProp : Ty := { canon := .bool }
/-- `t_void`, `src/types.fu` 72. -/
def tVoid : Ty := { canon := .void, rel := false }
/-- `t_never`, `src/types.fu` 73. -/
def tNever : Ty := { canon := .never, rel := false }
/-- `t_zeroes`, `src/types.fu` 74. -/
def tZeroes : Ty := { canon := .zeroes, rel := false }
/-- No type is asked for. -/
def tNone : Ty := { canon := .none, rel := false }

/-- `propositionOK`, `src/types.fu` 56-63; `acceptsBools_fromAndOr`, `src/codegen.fu` 2945-2952. -/
def Ty.boolval (t : Ty) : Bool := t.canon == .bool && !t.ref

/-- `is_never`, `src/types.fu` 77. -/
def Ty.isNever (t : Ty) : Bool := t.canon == .never

/-- `is_void_or_propositionOK`, `src/types.fu` 81-85. -/
def Ty.voidOrProp (t : Ty) : Bool := t.boolval || t.canon == .void

/-- `isIrrelevant`, `src/types.fu` 635-651. -/
def Ty.irrelevant (t : Ty) : Bool := !t.rel && !t.isNever

/-- Solved nodes, `src/module.fu` (`SolvedNode`). Every node has its type. `lit` is a literal or a declaration; `field` reads a field; `call` has
one argument, and the type of the parameter; `leaf` is any other expression; `jump` leaves the block with this label, with a value
for a slot of some type. -/
inductive E where
  | lit (n : Nat) (t : Ty)
  | bool (b : Bool) (t : Ty)
  | definit (t : Ty)
  | var (n : Nat) (t : Ty)
  | field (n : Nat) (e : E) (t : Ty)
  | leaf (n : Nat) (t : Ty)
  | call (n : Nat) (p : Ty) (e : E) (t : Ty)
  | copy (e : E) (t : Ty)
  | not (e : E) (t : Ty)
  | and (es : List E) (t : Ty)
  | or (es : List E) (t : Ty)
  | ite (c a b : E) (t : Ty)
  | block (l : Option Nat) (es : List E) (t : Ty)
  | jump (l : Nat) (p : Ty) (e : E) (t : Ty)

/-- The type of a node. -/
def E.ty : E → Ty
  | .lit _ t | .bool _ t | .definit t | .var _ t | .field _ _ t | .leaf _ t | .call _ _ _ t | .copy _ t | .not _ t | .and _ t | .or _ t
  | .ite _ _ _ t | .block _ _ t | .jump _ _ _ t => t

/-- Why the compiler stops: it reports an error, it finds a bug in itself, or (in the model) the bound on the number of calls is reached. -/
inductive Stop where
  | error | bug | fuel
deriving DecidableEq, Repr

/-- What a function of the compiler gives. -/
abbrev X := Except Stop

/-- `StaticEval`, `src/solver.fu` 616-620. -/
inductive SE where
  | unknown | isFalse | isTrue
deriving DecidableEq, Repr

/-- `tryAbstractEvalAsBool`, `src/solver.fu` 11377-11399. -/
def absEval (t : Ty) (voidOk : Bool) : X SE :=
  if t.aT || t.aF then
    if !t.aT then .ok .isFalse else if !t.aF then .ok .isTrue else .error .bug
  else if t.irrelevant then (if voidOk then .ok .isFalse else .error .error)
  else .ok .unknown

/-- `isImmediatelyDiscardable`, `src/flags.fu` 361-364, or a variable, `src/solver.fu` 5922. -/
def E.discardable : E → Bool
  | .lit _ _ | .bool _ _ | .definit _ | .var _ _ => true
  | _ => false

/-- `createBlock(a, b)`, `src/solver.fu` 5918-5937. -/
def createBlock (a b : E) : E :=
  if a.discardable then b
  else
    match b with
    | .block l es t => .block l (a :: es) t
    | b => .block none [a, b] b.ty

/-- `definitType`, `src/types.fu` 225-245. -/
def definitType (t : Ty) : Ty :=
  let t := if t.canon == .none || t.isNever then tZeroes else t
  { t with mutref := false, stat := t.ref, aT := false, aF := true }

/-- `solveDefinit`, `src/solver.fu` 1800-1805. -/
def solveDefinit (t : Ty) : E := .definit (definitType t)

section
variable (cs : Canon → Canon → Option Canon)

/-- `type_trySuper`, `src/types.fu` 438-446, for types with a common canon. -/
def joinTy (c : Canon) (a b : Ty) : Ty :=
  { canon := c, rel := a.rel || b.rel, ref := a.ref && b.ref, stat := a.ref && b.ref && (a.stat || b.stat),
    mutref := a.mutref && b.mutref, aT := a.aT && b.aT, aF := a.aF && b.aF }

/-- `type_trySuper`, `src/types.fu` 430-447; `cs` is `canon_trySuper`. -/
def trySuper (a b : Ty) : Option Ty :=
  match cs a.canon b.canon with
  | some c => some (joinTy c a b)
  | none =>
    if a.canon = .zeroes then (cs b.canon b.canon).map fun c => joinTy c b (definitType b)
    else if b.canon = .zeroes then (cs a.canon a.canon).map fun c => joinTy c a (definitType a)
    else none

/-- `createIf`, `src/solver.fu` 11448-11488. -/
def createIf (cond cons alt : E) (type : Ty) : X E :=
  if cond.ty.isNever then .error .bug
  else do
    match ← absEval cond.ty false with
    | .isTrue => return createBlock cond cons
    | .isFalse => return createBlock cond alt
    | .unknown =>
      if cons.ty.isNever && alt.ty.isNever then return .ite cond cons alt tNever
      else if type.boolval then return .ite cond cons alt tBool
      else if type.canon == .void then return .ite cond cons alt type
      else if cons.ty.isNever then return .ite cond cons alt alt.ty
      else if alt.ty.isNever then return .ite cond cons alt cons.ty
      else
        match trySuper cs cons.ty alt.ty with
        | some t => return .ite cond cons alt t
        | none => throw .error

/-- `items.splice(i, 1)` and `cons = createBlock(cond, cons)`, `src/solver.fu` 11718-11724. -/
def mergeAt (items : List E) (i : Nat) : X (List E) :=
  match items.drop i with
  | a :: b :: rest => .ok (items.take i ++ createBlock a b :: rest)
  | _ => .error .bug

/-- The loop of `createAndOr_staticEvalFold`, `src/solver.fu` 11712-11730: `i` counts down. -/
def foldLoop (fold : SE) : Nat → List E → Nat → X (List E × Nat)
  | 0, items, trim => .ok (items, trim)
  | i + 1, items, trim =>
    match items[i]? with
    | none => .error .bug
    | some x =>
      match absEval x.ty false with
      | .error e => .error e
      | .ok se =>
        if se = fold then
          match mergeAt items i with
          | .error e => .error e
          | .ok items => foldLoop fold i items (trim - 1)
        else if se ≠ .unknown then foldLoop fold i items (i + 1)
        else foldLoop fold i items trim

/-- `createAndOr_staticEvalFold`, `src/solver.fu` 11706-11733. -/
def staticEvalFold (fold : SE) (items : List E) : X (List E × Nat) := foldLoop fold (items.length - 1) items 0

/-- `createAndOr_staticEvalTrim`, `src/solver.fu` 11735-11750, but for the type. -/
def staticEvalTrim (trim : Nat) (items : List E) : List E := if trim ≠ 0 then items.take trim else items

/-- The loop of `createOr` that sums types, `src/solver.fu` 11526-11586, over the items from the last to the first. The type is `bool` if
there is no common one and an item is a `bool`. -/
def sumOr (anyBool : Bool) : List Ty → Option Ty → X (Option Ty)
  | [], sum => .ok sum
  | t :: ts, sum =>
    if t.isNever then sumOr anyBool ts sum
    else
      match sum with
      | none => sumOr anyBool ts (some t)
      | some u =>
        match trySuper cs u t with
        | some w => sumOr anyBool ts (some w)
        | none => if anyBool then .ok none else .error .error

/-- `createOr`, `src/solver.fu` 11513-11603. -/
def createOr (items : List E) (type : Ty) : X E := do
  let (items, trim) ← staticEvalFold .isFalse items
  let items := staticEvalTrim trim items
  match items.getLast? with
  | none => throw .bug
  | some last =>
    if items.length < 2 then return last
    let t ←
      if type.voidOrProp then pure tBool
      else do
        match ← sumOr cs (items.any fun e => e.ty.canon == .bool) (items.reverse.map E.ty) none with
        | none => pure tBool
        | some t => pure t
    let t := if last.ty.isNever || last.ty.aT then { t with aT := true, aF := false } else t
    return .or items t

/-- `andNodeType_canCleanlyDefinit`, `src/solver.fu` 11626-11630. -/
def Ty.clean (t : Ty) : Bool := !t.mutref && (!t.ref || t.stat)

/-- The loop of `createAnd` that sums types, `src/solver.fu` 11645-11675: the type of the last item that comes to an end, and the sum. -/
def sumAnd : List Ty → Option (Ty × Ty) → Ty → Ty × Ty
  | [], none, type => (type, tNone)
  | [], some ts, _ => ts
  | t :: ts, none, type =>
    if t.isNever then sumAnd ts none type
    else if t.canon == .zeroes then (t, t)
    else sumAnd ts (some (t, t)) type
  | t :: ts, some (ty, sum), type =>
    if t.isNever then sumAnd ts (some (ty, sum)) type
    else
      let sum := (trySuper cs sum t).getD tNone
      if sum.clean then (ty, sum) else sumAnd ts (some (ty, sum)) type

/-- The last part of `createAnd`, `src/solver.fu` 11695-11703. -/
def andTail (items : List E) (trim : Nat) (type : Ty) : X E :=
  let type := if trim ≠ 0 then { type with aF := true } else type
  let items := staticEvalTrim trim items
  match items.getLast? with
  | none => .error .bug
  | some last =>
    if items.length < 2 then .ok last
    else .ok (.and items (if last.ty.isNever || last.ty.aF then { type with aT := false, aF := true } else type))

/-- `createAnd` where a `bool` will do, `src/solver.fu` 11632-11635, 11690-11703. -/
def createAndBool (items : List E) : X E := do
  let (items, trim) ← staticEvalFold .isTrue items
  andTail items trim tBool

/-- `createAnd`, `src/solver.fu` 11632-11704. -/
def createAnd (items : List E) (type : Ty) : X E := do
  let (items, trim) ← staticEvalFold .isTrue items
  if items.length > 1 && !type.voidOrProp then
    let (ty, sum) := sumAnd cs (items.reverse.map E.ty) none type
    if sum.clean then
      match items.getLast? with
      | none => throw .bug
      | some cons =>
        let cond ← createAndBool items.dropLast
        createIf cs cond cons (solveDefinit ty) tNone
    else andTail items trim sum
  else andTail items trim tBool

/-- `createNot`, `src/solver.fu` 11763-11783. -/
def createNot (item : E) : X E :=
  match item with
  | .bool b _ => .ok (.bool (!b) { tBool with aT := !b, aF := b })
  | item => do
    match ← absEval item.ty false with
    | .unknown => return .not item tBool
    | .isTrue => return .not item { tBool with aF := true }
    | .isFalse => return .not item { tBool with aT := true }

/-- What is solved: conditionals over expressions that other code has solved. -/
inductive Src where
  | leaf (e : E)
  | not (a : Src)
  | and (as : List Src)
  | or (as : List Src)
  | ite (c a b : Src)

mutual
/-- `solveNode` for conditionals: `solveIf` 11402-11431, `solveOr` 11496-11511, `solveAnd` 11605-11624, `solveNot` 11755-11761 in
`src/solver.fu`; the type is the expected one. -/
def solve : Src → Ty → X E
  | .leaf e, _ => .ok e
  | .not a, _ => do createNot (← solve a tProp)
  | .or as, type => do
    createOr cs (← solveNodes as type (if type.canon == .void then tProp else type) .isTrue true) type
  | .and as, type => do
    let brk := type.voidOrProp
    createAnd cs (← solveNodes as type tProp (if brk then .isFalse else .unknown) brk) type
  | .ite c a b, type => do
    let cond ← solve c tProp
    if cond.ty.isNever then return cond
    match ← absEval cond.ty false with
    | .isTrue => return createBlock cond (← solve a type)
    | .isFalse => return createBlock cond (← solve b type)
    | .unknown => createIf cs cond (← solve a type) (← solve b type) type

/-- `solveNodes`, `src/solver.fu` 13038-13094, for nodes that are not declarations. -/
def solveNodes : List Src → Ty → Ty → SE → Bool → X (List E)
  | [], _, _, _, _ => .ok []
  | [n], typeLast, _, brk, _ => do
    let e ← solve n typeLast
    -- the condition is looked at after the last one too: it can be an error
    if brk ≠ .unknown && !e.ty.isNever then
      let _ ← absEval e.ty true
      return [e]
    return [e]
  | n :: n' :: ns, typeLast, typeAll, brk, dead => do
    let e ← solve n typeAll
    if e.ty.isNever && dead then return [e]
    if brk ≠ .unknown then
      let ae ← absEval e.ty false
      if ae = brk then return [e]
    return e :: (← solveNodes (n' :: ns) typeLast typeAll brk dead)
end

end

/-! ## While borrows are checked -/

/-- `node.vfacts |= AlwaysTrue` or `AlwaysFalse`. -/
def Ty.orFact (t : Ty) (b : Bool) : Ty := if b then { t with aT := true } else { t with aF := true }

mutual
/-- `bck_node`, `src/solver.fu` 14581-14683, as far as it changes the tree. Blocks have a label only if it is jumped to
(`HM_LabelUsed`). -/
def bck : Nat → E → X E
  | 0, _ => .error .fuel
  | k + 1, e =>
    match e with
    | .field n a t => do return .field n (← bck k a) t
    | .call n p a t => do return .call n p (← bck k a) t
    | .copy a t => do return .copy (← bck k a) t
    | .jump l p a t => do return .jump l p (← bck k a) t
    | .not a t => do
      -- `bck_not`, 14503-14514
      let a ← bck k a
      match ← absEval a.ty false with
      | .unknown => return .not a t
      | .isTrue => return .not a (t.orFact false)
      | .isFalse => return .not a (t.orFact true)
    | .ite c a b t => do
      -- `bck_if`, 14431-14466
      let c ← bck k c
      match ← absEval c.ty false with
      | .isTrue => return createBlock c (← bck k a)
      | .isFalse => return createBlock c (← bck k b)
      | .unknown => return .ite c (← bck k a) (← bck k b) t
    | .and es t => bckAndOr k true 0 es t
    | .or es t => bckAndOr k false 0 es t
    | .block l es t => do
      -- `bck_block`, 14516-14575
      let (es, dead) ← bckBlock k es
      return .block l es (if dead && l.isNone then tNever else t)
    | e => .ok e

/-- `bck_and_or`, `src/solver.fu` 14468-14501. -/
def bckAndOr : Nat → Bool → Nat → List E → Ty → X E
  | 0, _, _, _, _ => .error .fuel
  | k + 1, isAnd, i, items, t =>
    match items[i]? with
    | none =>
      match items with
      | [x] => .ok x
      | items => .ok (if isAnd then .and items t else .or items t)
    | some x => do
      let x ← bck k x
      let items := items.set i x
      let ae ← absEval x.ty (i == items.length - 1)
      if ae = .unknown then bckAndOr k isAnd (i + 1) items t
      else if isAnd == (ae == .isFalse) then
        match items.take (i + 1) with
        | [x] => return x
        | items => return (if isAnd then .and items (t.orFact false) else .or items (t.orFact true))
      else if i + 1 < items.length then
        match mergeAt items i with
        | .error e => throw e
        | .ok items => bckAndOr k isAnd i items t
      else bckAndOr k isAnd (i + 1) items t

/-- The items of a block, and whether the last that is kept does not come to an end. -/
def bckBlock : Nat → List E → X (List E × Bool)
  | 0, _ => .error .fuel
  | _ + 1, [] => .ok ([], false)
  | k + 1, x :: xs => do
    let x ← bck k x
    if x.ty.isNever then return ([x], true)
    let (xs, dead) ← bckBlock k xs
    return (x :: xs, dead)
end

/-! ## While an expression is inlined -/

section
-- `ρ`: what becomes of an expression that refers to a local of the function it is taken from
variable (ρ : Nat → Ty → E)

mutual
/-- `visitNode` in `inlineExpression`, `src/solver.fu` 12255-12353, as far as it is about conditionals, blocks and dead code. -/
def inl : E → X E
  | .leaf n t => .ok (ρ n t)
  | .field n a t => do return .field n (← inl a) t
  | .call n p a t => do
    let a ← inl a
    if a.ty.isNever then return .block none [a] tNever
    return .call n p a t
  | .copy a t => do return .copy (← inl a) t
  | .jump l p a t => do return .jump l p (← inl a) t
  | .not a t => do
    let a ← inl a
    if a.ty.isNever then return a
    return .not a t
  | .ite c a b t => do
    let c ← inl c
    match ← absEval c.ty false with
    | .isTrue => return .block none [c, ← inl a] t
    | .isFalse => return .block none [c, ← inl b] t
    | .unknown =>
      return .ite c (← inl a) (← inl b) t
  | .and es t => inlConds true [] es t
  | .or es t => inlConds false [] es t
  | .block l es t => do return .block l (← inlBlock es) t
  | e => .ok e

/-- The items of `&&` and `||`: those before the last are conditions. -/
def inlConds (isAnd : Bool) (done : List E) : List E → Ty → X E
  | [], t => .ok (if isAnd then .and done t else .or done t)
  | [x], t => do
    let x ← inl x
    return if isAnd then .and (done ++ [x]) t else .or (done ++ [x]) t
  | x :: y :: ys, t => do
    let x ← inl x
    let ae ← absEval x.ty false
    if ae = .isTrue ∧ isAnd = false ∨ ae = .isFalse ∧ isAnd = true then
      if done.isEmpty then return x
      return if isAnd then .and (done ++ [x]) t else .or (done ++ [x]) t
    inlConds isAnd (done ++ [x]) (y :: ys) t

/-- The items of a block, up to the first that does not come to an end. -/
def inlBlock : List E → X (List E)
  | [] => .ok []
  | x :: xs => do
    let x ← inl x
    if x.ty.isNever then return [x]
    return x :: (← inlBlock xs)
end

end

end Verif.Fold
