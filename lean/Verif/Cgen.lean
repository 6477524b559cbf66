import Verif.Basic
import Verif.Loop
import Verif.Cpp
import Verif.Decstr
import Verif.Helpers
/-!
# Model of the text-emitting helpers of `src/codegen.fu` and `src/hacks.fu`

Literals, identifiers, operators, names of local variables, and closure ids.  `none` is an out-of-bounds access.
-/
namespace Verif.Cgen
open Verif

/-- src/codegen.fu:684-686 `hex(x: u32)`: one upper-case hexadecimal digit. -/
def hex (x : BitVec 32) : Byte :=
  if x.toNat < 10 then (48#32 + x).setWidth 8 else (65#32 + (x - 10#32)).setWidth 8

/-- src/codegen.fu:688-690 `xHH(c: u32)`. -/
def xHH (c : BitVec 32) : Str :=
  [ch 'x', hex ((c >>> 4) &&& 0xf#32), hex ((c >>> 0) &&& 0xf#32)]

/-- `c.u32` of a `byte`: `uint32_t(char)`, which sign-extends. -/
def u32 (c : Byte) : BitVec 32 := c.signExtend 32

/-- src/codegen.fu:2137-2177: one turn of the loop of `escapeStringLiteral`; `esc` is what was written so far.  `c.i8 < 32`
and the comparisons with `next` are on signed `char`s. -/
def escStep (s : Str) (quot : Byte) (i : Nat) (esc : Str) : Option Str := do
  let c ← s[i]?
  if c = 10#8 then some (esc ++ [ch '\\', ch 'n'])
  else if c = 13#8 then some (esc ++ [ch '\\', ch 'r'])
  else if c = 9#8 then some (esc ++ [ch '\\', ch 't'])
  else if c = 11#8 then some (esc ++ [ch '\\', ch 'v'])
  else if c = ch '\\' then some (esc ++ [ch '\\', ch '\\'])
  else if Byte.lt c 32#8 then
    let esc := esc ++ ch '\\' :: xHH (u32 c)
    if (i : Int) < (s.length : Int) - 1 ∧ quot = ch '"' then do
      let next ← s[i + 1]?
      if (Byte.le (ch 'a') next && Byte.le next (ch 'f')) || (Byte.le (ch 'A') next && Byte.le next (ch 'F')) ||
          (Byte.le (ch '0') next && Byte.le next (ch 'F')) then
        some (esc ++ [ch '"', ch '"'])
      else some esc
    else some esc
  else if c = quot then some (esc ++ [ch '\\', c])
  else some (esc ++ [c])

/-- src/codegen.fu:2133-2182 `escapeStringLiteral(str, quot)`. -/
def escapeStringLiteral (s : Str) (quot : Byte) : Option Str := do
  let esc ← forUp 0 s.length [quot] (escStep s quot)
  some (esc ++ [quot])

/-- src/codegen.fu:2242-2253 `cgCharLiteral`: the text for the value of a `char` token. -/
def cgCharLiteral (value : Str) : Option Str := escapeStringLiteral value (ch '\'')

/-- src/codegen.fu:2193-2205: the text of a string literal before it is moved to a static variable: a `fu::view` literal
or a `fu::strlit` literal. -/
def cgStringLiteral (value : Str) (asView : Bool) : Option Str := do
  let esc ← escapeStringLiteral value (ch '"')
  some (esc ++ str (if asView then "_view" else "_fu"))

/-- src/codegen.fu:711-714 (and 659-662): letters, digits and the underscore. -/
def identByte (c : Byte) : Bool :=
  (Byte.le (ch 'a') c && Byte.le c (ch 'z')) || (Byte.le (ch 'A') c && Byte.le c (ch 'Z')) ||
  (Byte.le (ch '0') c && Byte.le c (ch '9')) || decide (c = ch '_')

/-- src/codegen.fu:708-719: the loop `for (i = str.len; i --> 0; )`, with `i` the number of bytes not looked at yet. -/
def identLoop : Nat → Str → Option Str
  | 0, s => some s
  | i + 1, s => do
    let c ← s[i]?
    if identByte c then identLoop i s
    else identLoop i (s.take i ++ xHH (u32 c) ++ s.drop (i + 1))

/-- src/codegen.fu:706-722 `valid_identifier(mut str)`. -/
def valid_identifier (s : Str) : Option Str := do
  let s ← identLoop s.length s
  Cpp.ID s

/-- src/codegen.fu:657-676: one turn of the loop of `valid_operator`; the state is `(start, some)`. -/
def opStep (s : Str) (i : Nat) : Nat × Bool → Option ((Nat × Bool) ⊕ Str)
  | (start, seen) => do
    let c ← s[i]?
    if identByte c then
      if !seen then some (.inl (i + 1, seen))
      else some (.inr ((s.take i).drop start))
    else some (.inl (start, true))

/-- src/codegen.fu:652-680 `valid_operator(str)`. -/
def valid_operator (s : Str) : Option Str := do
  match ← forBrk 0 s.length (0, false) (opStep s) with
  | .inr r => some r
  | .inl (start, _) => some (if start ≠ 0 then s.drop start else s)

/-! ## Names of local variables -/

/-- src/codegen.fu:183-185: the part of `cg_CurrentFn` that names locals.  Positive and negative local ids have a list each. -/
structure Locals where
  used : List Str
  dedP : List Nat
  dedN : List Nat

/-- src/prelude.fu:930-935 `ensure(exists: i) = v` on a list of integers. -/
def ensureSet (a : List Nat) (i v : Nat) : List Nat :=
  (if a.length ≤ i then a ++ List.replicate (i + 1 - a.length) 0 else a).set i v

/-- src/prelude.fu:925-928 `a.if(exists: i)`. -/
def ifExists (a : List Nat) (i : Nat) : Nat := (a[i]?).getD 0

/-- src/codegen.fu:916-918, 945: the name with a number appended. -/
def candidate (id : Str) (dupes : Nat) : Str :=
  if dupes ≠ 0 then id ++ [ch '_'] ++ Decstr.i64dec (BitVec.ofNat 64 dupes) else id

/-- src/codegen.fu:909-931: `:REPEAT for (;;)`, starting at `dupes`; the first argument bounds the number of turns, and `none`
means that they were not enough.  The scan of `_ids_used` is list membership. -/
def pick (used : List Str) (id : Str) : Nat → Nat → Option Nat
  | 0, _ => none
  | turns + 1, dupes => if candidate id dupes ∈ used then pick used id turns (dupes + 1) else some dupes

/-- src/codegen.fu:939-945: "Dedupe #2". -/
def refName (st : Locals) (locid : Int) (id : Str) : Str :=
  let dupes := if locid < 0 then ifExists st.dedN (-locid).toNat else ifExists st.dedP locid.toNat
  if dupes ≠ 0 then candidate id dupes else id

/-- src/codegen.fu:890-949 `localID(target, dedupe)` for a local (`target.locid` is not 0) whose name is `name`.  Not
modelled: a global's name (locid 0) and looking up the name behind a closure id (`CLOSURE-ID-HACK`). -/
def localID (st : Locals) (locid : Int) (name : Str) (dedupe : Bool) : Option (Locals × Str) := do
  let id ← Cpp.ID name
  let id ← valid_identifier id
  if dedupe then do
    let dupes ← pick st.used id (st.used.length + 1) 0
    let st := { st with used := st.used ++ [candidate id dupes] }
    let st :=
      if dupes ≠ 0 then
        if locid < 0 then { st with dedN := ensureSet st.dedN (-locid).toNat dupes }
        else { st with dedP := ensureSet st.dedP locid.toNat dupes }
      else st
    some (st, refName st locid id)
  else some (st, refName st locid id)

/-- src/codegen.fu:2715-2721 `rootNS(id)`: whether `::` is put before a global's name. -/
def rootNS (st : Locals) (id : Str) : Bool := decide (id ∈ st.used)

/-! ## Closure ids -/

/-- src/hacks.fu:5-9 with src/structs `Target`: module, global and local number. -/
structure ClosureID where
  modid : BitVec 32
  globid : BitVec 32
  locid : BitVec 32
  revision : BitVec 32
  deriving DecidableEq, Repr

/-- src/hacks.fu:11-28 `serialize`; `none` is a `BUG`. -/
def serialize (c : ClosureID) : Option Str :=
  if c.globid.toInt ≤ 0 then none
  else
    let result := [ch '`']
    let result := Helpers.appendVarint result c.modid
    let result := Helpers.appendVarint result c.revision
    let result := Helpers.appendVarint result c.globid
    let result := Helpers.appendVarint result c.locid
    some result

/-- src/hacks.fu:30-47 `tryParseClosureID(id)`: `.ok none` is the empty result, `.error` a `BUG` or a failure of
`parseVarint`. -/
def tryParseClosureID (id : Str) : Except Helpers.Err (Option ClosureID) :=
  if id.length > 3 ∧ id[0]? = some (ch '`') then do
    let (modid, offset) ← Helpers.parseVarint id 1
    let (revision, offset) ← Helpers.parseVarint id offset
    let (globid, offset) ← Helpers.parseVarint id offset
    let (locid, offset) ← Helpers.parseVarint id offset
    if offset = id.length then .ok (some { modid, globid, locid, revision }) else .error .thrown
  else .ok none

end Verif.Cgen
