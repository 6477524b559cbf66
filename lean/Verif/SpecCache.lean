import Verif.Canon
import Verif.Decstr
/-! # The cache of template instances

src/solver.fu: the names calls are cached under (`mangleArgTypes`, 6380-6443), the lookup (`trySpecialize`, 6459-6517) and the
book-keeping done while an instance is being made (`setSpec`, `resetSpec`, `resetMangle`, `SPECFAIL` inside
`doTrySpecialize`, 6915-7003, used at 7246, 7251, 7303 and 7605).

What the solver itself does (matching, solving, relaxing) is not modelled here: its outcomes arrive as events, in any order
the code's control flow allows, with other calls nested at any point. -/
namespace Verif.SpecCache
open Verif Verif.Helpers

/-- a type as far as names are concerned: the tag bits of its qualifiers, and its canonical name -/
structure Ty where
  tags : BitVec 32
  canon : Str
  deriving DecidableEq, Repr

/-- one position of an argument list: a type, or nothing -/
abbrev Slot := Option Ty

/-- `overloadIdx.modid`, `overloadIdx.globid` -/
structure Tmpl where
  modid : BitVec 32
  globid : BitVec 32
  deriving DecidableEq, Repr

/-! ### names -/

/-- src/solver.fu:6397-6399, 6427-6431: `if (type) mangle ~= serializeType(type)` -/
def slotText : Slot → Except Err Str
  | none => .ok []
  | some t => Canon.serializeType t.tags t.canon

/-- src/solver.fu:6384-6403: the loop of the first `mangleArgTypes`, `i` positions in (injected arguments, which the code
skips at 6394-6395, are not among the slots) -/
def mangleLoop : List Slot → Nat → Str → Except Err Str
  | [], _, mangle => .ok mangle
  | a :: rest, i, mangle => do
    let s ← slotText a
    mangleLoop rest (i + 1) ((if i ≠ 0 then mangle ++ str "," else mangle) ++ s)

/-- src/solver.fu:6380-6409 (`mangleArgTypes(args: Type[..] or Argument[..])`) -/
def mangleTypes (args : List Slot) : Except Err Str := mangleLoop args 0 []

/-- what a call site gives a candidate: the arguments' types, the reordering and the conversions chosen for it (each the
type the conversion ends in, `conversionTailType`), and where its rest parameter starts -/
structure Site where
  args : List Ty
  reorder : Option (List Int)
  conv : List (Option Ty)
  restStart : Nat
  restType : Option Ty

/-- src/solver.fu:6422-6428: the slot at position `i` -/
def Site.slot (s : Site) (i : Nat) : Except Err Slot := do
  let callsite : Int := match s.reorder with
    | some map => map.getD i (-1)
    | none => i
  let arg : Slot ←
    if callsite ≥ 0 then
      match s.args[callsite.toNat]? with
      | some t => .ok (some t)
      | none => .error .ub
    else .ok none
  .ok (match s.conv[i]? with
    | some (some t) => some t
    | _ => arg)

/-- src/solver.fu:6417-6432: the loop of the second `mangleArgTypes`, from position `i` -/
def Site.loop (s : Site) : Nat → Nat → Str → Except Err Str
  | 0, _, mangle => .ok mangle
  | n + 1, i, mangle => do
    let a ← s.slot i
    let t ← slotText a
    s.loop n (i + 1) ((if i ≠ 0 then mangle ++ str "," else mangle) ++ t)

/-- src/solver.fu:6418: `REST_END` -/
def Site.restEnd (s : Site) : Nat :=
  match s.reorder with
  | some map => map.length
  | none => s.args.length

/-- src/solver.fu:6411-6443 (`mangleArgTypes(args: SolvedNode[..], reorder, conversions, REST_START, REST_TYPE)`) -/
def Site.mangle (s : Site) : Except Err Str := do
  let m ← s.loop (min s.restEnd s.restStart) 0 []
  if s.restStart < s.restEnd then
    match s.restType with
    | none => .error .thrown
    | some t => do
      let r ← Canon.serializeType t.tags t.canon
      .ok ((if s.restStart ≠ 0 then m ++ str "," else m) ++ r)
  else .ok m

/-- src/solver.fu:6505: `overloadIdx.modid ~ "#" ~ overloadIdx.globid ~ " "` -/
def Tmpl.pre (t : Tmpl) : Str :=
  Decstr.i64dec (t.modid.signExtend 64) ++ str "#" ++ Decstr.i64dec (t.globid.signExtend 64) ++ str " "

/-- src/solver.fu:6982-6983: `mangle.slice(0, mangle.find(' ') + 1)` -/
def prefixOf (mangle : Str) : Str := mangle.take (mangle.idxOf (ch ' ') + 1)

/-! ### the cache -/

/-- what a name is bound to: `SPECFAIL_RentrySafety`, or an instance -/
inductive Entry where
  | fail
  | inst (id : Nat)
  deriving DecidableEq, Repr

/-- an instance: what it was made from, whether it was destroyed (src/solver.fu:6849-6875), and, once solved, the argument
types it ended up with -/
structure Inst where
  tmpl : Tmpl
  parent : Int
  made : List Slot
  dead : Bool
  final : Option (List Slot)
  deriving Repr

/-- how far a running `doTrySpecialize` has come: before the arguments' types are settled (7246), before the body pattern is
chosen (7303), before the signature first goes out (7644), and while the body is solved -/
inductive Phase where
  | entered | matched | created | solving
  deriving DecidableEq, Repr

/-- a running `doTrySpecialize` (`into` empty). `call` and `lit` are for the record: what it was called with, and whether any
of that was a literal. -/
structure Frame where
  parent : Int
  tmpl : Tmpl
  call : List Slot
  lit : Bool
  error : Bool
  mangle : Str
  phase : Phase
  mangles : List Str
  current : Entry
  made : List Slot
  target : Nat
  deriving Repr

/-- a finished `trySpecialize` -/
structure Done where
  tmpl : Tmpl
  parent : Int
  call : List Slot
  lit : Bool
  result : Entry
  deriving Repr

structure State where
  specs : Int → Str → Option Entry
  insts : List Inst
  frames : List Frame
  log : List Done

def State.init : State := ⟨fun _ _ => none, [], [], []⟩

/-- why a step does not happen: it is not its turn, or the compiler stops with `BUG` -/
inductive Stop where
  | notNow
  | bug
  deriving DecidableEq, Repr

def put (specs : Int → Str → Option Entry) (p : Int) (k : Str) (e : Entry) : Int → Str → Option Entry :=
  fun p' k' => if p' = p ∧ k' = k then some e else specs p' k'

/-- src/solver.fu:6915-6934 (`setSpec`) -/
def setSpec (specs : Int → Str → Option Entry) (parent : Int) (mangle : Str) (target : Entry) (nx allow : Bool) :
    Except Stop (Int → Str → Option Entry) :=
  let t := specs parent mangle
  if (t.isNone == nx) && (t.isNone || t == some .fail || allow) then .ok (put specs parent mangle target)
  else .error .bug

/-- src/solver.fu:6944-6946: the loop of `resetSpec` -/
def setAll (parent : Int) (spec : Entry) (allow : Bool) :
    List Str → (Int → Str → Option Entry) → Except Stop (Int → Str → Option Entry)
  | [], specs => .ok specs
  | m :: rest, specs => do
    let specs ← setSpec specs parent m spec false allow
    setAll parent spec allow rest specs

/-- src/solver.fu:6940-6948 (`resetSpec`): the cache, and the frame's `currentSpec` -/
def resetSpec (specs : Int → Str → Option Entry) (f : Frame) (spec : Entry) (allow : Bool) :
    Except Stop ((Int → Str → Option Entry) × Frame) :=
  if spec = f.current then .ok (specs, f)
  else
    match setAll f.parent spec allow f.mangles specs with
    | .error e => .error e
    | .ok specs => .ok (specs, { f with current := spec })

/-- src/solver.fu:6849-6875 (`destroyOverload`); what is nested inside the instance is not modelled -/
def destroy (insts : List Inst) (i : Nat) : List Inst :=
  insts.modify i fun x => { x with dead := true }

/-- src/solver.fu:6951-6977 (`resetMangle`): `some e` makes the whole `doTrySpecialize` return `e` -/
def resetMangle (specs : Int → Str → Option Entry) (insts : List Inst) (f : Frame) (mangle : Str) (allow : Bool) :
    Except Stop ((Int → Str → Option Entry) × List Inst × Frame × Option Entry) :=
  if mangle ∈ f.mangles then .ok (specs, insts, f, none)
  else
    match specs f.parent mangle with
    | some pre =>
      let insts := match f.current with
        | .fail => insts
        | .inst i => destroy insts i
      match resetSpec specs f pre allow with
      | .error e => .error e
      | .ok (specs, f) => .ok (specs, insts, f, some pre)
    | none =>
      match setSpec specs f.parent mangle f.current true false with
      | .error e => .error e
      | .ok specs => .ok (specs, insts, { f with mangles := mangle :: f.mangles }, none)

/-- src/solver.fu:6979-6985 (`resetMangle(args)`): the name is the frame's prefix and the types' mangle; naming a type without
a name is a bug -/
def resetArgs (specs : Int → Str → Option Entry) (insts : List Inst) (f : Frame) (args : List Slot) (allow : Bool) :
    Except Stop ((Int → Str → Option Entry) × List Inst × Frame × Option Entry) :=
  match mangleTypes args with
  | .error _ => .error .bug
  | .ok m => resetMangle specs insts f (prefixOf f.mangle ++ m) allow

/-- what the solver does next -/
inductive Ev where
  /-- `trySpecialize` is called; `mangle` is its `args_mangled` -/
  | call (tmpl : Tmpl) (parent : Int) (slots : List Slot) (lit error : Bool) (mangle : Str)
  /-- the type parameters are solved against the arguments' types, which are now `fixed`: did they match? (7046-7251) -/
  | match_ (fixed : List Slot) (ok : Bool)
  /-- no body pattern matched (7301-7303) -/
  | reject
  /-- a new instance (7365-7405) -/
  | create
  /-- the signature goes out before the body is solved (7641-7646); `dirty` is the early return of `updateScope` (7569) -/
  | first (sig : List Slot) (native dirty : Bool)
  /-- the body is solved, the signature is final (7714) -/
  | last (sig : List Slot) (dirty : Bool)

/-- the running `doTrySpecialize` is over -/
def State.pop (st : State) (f : Frame) (e : Entry) : State :=
  { st with frames := st.frames.tail, log := st.log ++ [⟨f.tmpl, f.parent, f.call, f.lit, e⟩] }

/-- the instance is solved -/
def finish (insts : List Inst) (i : Nat) (sig : List Slot) : List Inst :=
  insts.modify i fun x => { x with final := some sig }

/-- src/solver.fu:7599-7607: the last lines of `updateScope`. `inl` is the early `return preexisting`. -/
def publish (st : State) (f : Frame) (sig : List Slot) (maybeLast : Bool) : Except Stop (State × Frame × Option Entry) :=
  match resetArgs st.specs st.insts f sig maybeLast with
  | .error e => .error e
  | .ok (specs, insts, f, some pre) => .ok ({ st with specs := specs, insts := insts }, f, some pre)
  | .ok (specs, insts, f, none) =>
    match resetSpec specs f (.inst f.target) false with
    | .error e => .error e
    | .ok (specs, f) => .ok ({ st with specs := specs, insts := insts }, f, none)

/-- one step of the solver -/
def step (st : State) : Ev → Except Stop State
  | .call tmpl parent slots lit error mangle =>
    -- src/solver.fu:6505-6516
    let key := tmpl.pre ++ mangle
    let enter : State := { st with frames := ⟨parent, tmpl, slots, lit, error, key, .entered, [], .fail, [], 0⟩ :: st.frames }
    match st.specs parent key with
    | some pre =>
      if pre ≠ .fail || !error then .ok { st with log := st.log ++ [⟨tmpl, parent, slots, lit, pre⟩] } else .ok enter
    | none => .ok enter
  | .match_ fixed ok =>
    match st.frames with
    | [] => .error .notNow
    | f :: rest =>
      if f.phase ≠ .entered then .error .notNow
      else if f.error then
        -- src/solver.fu:7238-7251, 6987-6995: nothing is recorded in the second, error-reporting run
        if ok then .ok { st with frames := { f with phase := .matched, made := fixed } :: rest } else .ok (st.pop f .fail)
      else
        match resetArgs st.specs st.insts f fixed false with
        | .error e => .error e
        | .ok (specs, insts, f, some pre) => .ok ({ st with specs := specs, insts := insts }.pop f pre)
        | .ok (specs, insts, f, none) =>
          if ok then
            .ok { st with specs := specs, insts := insts, frames := { f with phase := .matched, made := fixed } :: rest }
          else
            match resetSpec specs f .fail false with
            | .error e => .error e
            | .ok (specs, f) => .ok ({ st with specs := specs, insts := insts }.pop f .fail)
  | .reject =>
    match st.frames with
    | [] => .error .notNow
    | f :: _ =>
      if f.phase ≠ .matched then .error .notNow
      else if f.error then .ok (st.pop f .fail)
      else
        match resetSpec st.specs f .fail false with
        | .error e => .error e
        | .ok (specs, f) => .ok ({ st with specs := specs }.pop f .fail)
  | .create =>
    match st.frames with
    | [] => .error .notNow
    | f :: rest =>
      if f.phase ≠ .matched then .error .notNow
      -- src/solver.fu:7366-7367: "error path about to start solving"
      else if f.error then .error .bug
      else
        .ok { st with
          insts := st.insts ++ [⟨f.tmpl, f.parent, f.made, false, none⟩]
          frames := { f with phase := .created, target := st.insts.length } :: rest }
  | .first sig native dirty =>
    match st.frames with
    | [] => .error .notNow
    | f :: rest =>
      if f.phase ≠ .created then .error .notNow
      else if dirty then
        if native then .ok ({ st with insts := finish st.insts f.target sig }.pop f (.inst f.target))
        else .ok { st with frames := { f with phase := .solving } :: rest }
      else
        match publish st f sig native with
        | .error e => .error e
        | .ok (st, f, some pre) => .ok (st.pop f pre)
        | .ok (st, f, none) =>
          if native then .ok ({ st with insts := finish st.insts f.target sig }.pop f (.inst f.target))
          else .ok { st with frames := { f with phase := .solving } :: rest }
  | .last sig dirty =>
    match st.frames with
    | [] => .error .notNow
    | f :: _ =>
      if f.phase ≠ .solving then .error .notNow
      else if dirty then .ok ({ st with insts := finish st.insts f.target sig }.pop f (.inst f.target))
      else
        match publish st f sig true with
        | .error e => .error e
        | .ok (st, f, some pre) => .ok (st.pop f pre)
        | .ok (st, f, none) => .ok ({ st with insts := finish st.insts f.target sig }.pop f (.inst f.target))

/-- a history -/
def exec (st : State) : List Ev → Except Stop State
  | [] => .ok st
  | e :: rest =>
    match step st e with
    | .error x => .error x
    | .ok st => exec st rest

end Verif.SpecCache
