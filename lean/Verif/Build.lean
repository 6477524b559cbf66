import Verif.BuildSpec
import Verif.Prelude
import Verif.Path
/-!
# Model of the object cache: src/build.fu:432-740, 840-1222

Hashes are taken as free of collisions: `Hash` is an idealisation of `tea::TEA` (src/tea.fu; what holds of the real one is C26).
-/
namespace Verif.Build
open Verif

/-! ## Hashes -/

/-- What a hash absorbs. -/
inductive Item (U : Type) where
  | text (s : Str)
  | num (u : U)

/-- A hash without collisions: the value after absorbing some items.  `of []` is the zero state. -/
structure Hash (U : Type) where
  of : List (Item U) → U
  inj : ∀ a b, of a = of b → a = b

def Hash.zero {U : Type} (H : Hash U) : U := H.of []

/-! ## `#include`s -/

/-- src/build.fu:550-560: the first byte above ' ', or 0. -/
def trimLeft (m : Str) : Nat := (m.findIdx? (fun c => 32 < c.toNat)).getD 0

/-- src/build.fu:570-583: from position `i` on, the closing character, with no blank before it. -/
def closing (m : Str) (endChar : Byte) : Nat → Nat → Option Nat
  | _, 0 => none
  | i, k + 1 =>
    match m[i]? with
    | none => none
    | some c => if c.toNat ≤ 32 then none else if c = endChar then some i else closing m endChar (i + 1) k

/-- src/build.fu:529-585: the include in one piece of the text after `#include`; `none` is `matchFail` (a message). -/
def parsePiece (m : Str) : Option Str :=
  let m := m.drop (trimLeft m)
  if m.length > 2 then
    match m.head? with
    | none => none
    | some lead =>
      if lead = ch '"' then (closing m (ch '"') 1 (m.length - 1)).map fun i => m.take (i + 1)
      else if lead = ch '<' then (closing m (ch '>') 1 (m.length - 1)).map fun i => m.take (i + 1)
      else none
  else none

/-- src/build.fu:524-588 `parseIncludes`: the includes in a text. -/
def scanIncludes (src : Str) : List Str :=
  match Prelude.split src (.many (str "#include")) with
  | none => []
  | some ps => ps.tail.filterMap parsePiece

/-- src/build.fu:590-632 `visitInclude`, together with the `path::join` of `tryFollow` (line 488): where an include leads. -/
def includeTarget (fuInclude : Str) (junk : Nat → Str) (start inc : Str) : Option Str :=
  let f := (inc.take (inc.length - 1)).drop 1
  if str "\"" <+: inc then (Path.dirname start).bind fun d => Path.join junk d f
  else if str "<fu/" <+: inc then Path.join junk fuInclude f
  else none

variable {U : Type} [DecidableEq U] (H : Hash U) (L : Lang)

/-- `include_hashes`, and the paths in `file_invariants`. -/
structure State (U : Type) where
  memo : Str → U
  inv : List Str

def State.set (s : State U) (p : Str) (u : U) : State U := { s with memo := fun q => if q = p then u else s.memo q }

/-- src/build.fu:579, 590-632: the hash of one include (0 for a system header). -/
def visit (rec : State U → Str → Option (State U × U)) (p : Str) (s : State U) (i : Str) : Option (State U × U) :=
  match L.target p i with
  | none => some (s, H.zero)
  | some q => rec s q

/-- The includes of a file, one after the other. -/
def visits (rec : State U → Str → Option (State U × U)) (p : Str) : State U → List Str → Option (State U × List U)
  | s, [] => some (s, [])
  | s, i :: t =>
    match visit H L rec p s i with
    | none => none
    | some (s, h) =>
      match visits rec p s t with
      | none => none
      | some (s, hs) => some (s, h :: hs)

/-- src/build.fu:486-522 `tryFollow`.  `none`: a file is missing, or the bound on the depth was reached. -/
def follow (src : Str → Option Str) : Nat → State U → Str → Option (State U × U)
  | 0, _, _ => none
  | n + 1, s, p =>
    if s.memo p ≠ H.zero then some (s, s.memo p)
    else match src p with
      | none => none
      | some text =>
        let shallow := H.of [.text text]
        match visits H L (follow src n) p ({ s with inv := s.inv ++ [p] }.set p shallow) (L.scan text) with
        | none => none
        | some (s, hs) =>
          if hs ≠ [] then
            let deep := H.of (hs.map .num ++ [.num shallow])
            some (s.set p deep, deep)
          else some (s, shallow)

/-! ## Units -/

/-- A translation unit: src/build.fu:298-350, with the list `includes_headers` of the module and its file name. -/
structure TUnit where
  fname : Str
  src : Str
  incs : List Str

/-- src/build.fu:672-682, 706-737: the name of the object file in the cache. -/
def keyOf (gcc src : Str) (hs : List U) : U :=
  H.of [.text src, .num (H.of ((hs.filter (· ≠ H.zero)).map .num)), .num (H.of [.text gcc])]

/-- src/build.fu:640-738: the keys of all units. -/
def keys (src : Str → Option Str) (fuel : Nat) (gcc : Str) : State U → List TUnit → Option (State U × List U)
  | s, [] => some (s, [])
  | s, u :: t =>
    match visits H L (follow H L src fuel) u.fname s u.incs with
    | none => none
    | some (s, hs) =>
      match keys src fuel gcc s t with
      | none => none
      | some (s, ks) => some (s, keyOf H gcc u.src hs :: ks)

/-- What a build finds on the disk: when a header is hashed, its content and its size and time; what the compiler then sees, for
each unit; size and time when the headers are checked again. -/
structure World where
  src : Str → Option Str
  stat0 : Str → Nat
  view : Nat → Str → Option Str
  stat1 : Str → Nat

/-- The options of a build.  `gcc` is the part that is hashed (src/build.fu:432, 450), `extra` the rest: warnings, `flags_cc`, `-I`. -/
structure Opts where
  gcc : Str
  extra : Str
  link : Str
  nocache : Bool

/-- The compiler and the linker: src/build.fu:1064-1107, 1189-1222. -/
structure Tools (Obj Exe : Type) where
  cc : Str → Str → TUnit → (Str → Option Str) → Option Obj
  ld : Str → List Obj → Option Exe

/-- The workspace: object files and executables. -/
structure Cache (U Obj Exe : Type) where
  obj : U → Option Obj
  exe : U → Option Exe

variable {Obj Exe : Type} (T : Tools Obj Exe)

/-- src/build.fu:1044-1119 `buildUnit` for all units: the new object, or nothing if the cache has one.  Outer `none`: an error. -/
def compileAll (o : Opts) (w : World) (c : Cache U Obj Exe) : Nat → List (TUnit × U) → Option (List (Option Obj))
  | _, [] => some []
  | i, (u, k) :: t =>
    let one : Option (Option Obj) :=
      if (c.obj k).isSome ∧ o.nocache = false then some none
      else (T.cc o.gcc o.extra u (w.view i)).map some
    match one, compileAll o w c (i + 1) t with
    | some x, some xs => some (x :: xs)
    | _, _ => none

/-- src/build.fu:1166-1186: the new objects are moved to the cache. -/
def persist : (U → Option Obj) → List U → List (Option Obj) → U → Option Obj
  | c, k :: ks, some x :: xs => persist (fun q => if q = k then some x else c q) ks xs
  | c, _ :: ks, none :: xs => persist c ks xs
  | c, _, _ => c

/-- src/build.fu:840-1224 `buildTarget`, as far as the executable (without running it; `bin`: it is moved out of the cache, line
1332).  The result is the new state of the workspace and the executable; `none` is an error, which leaves a state too. -/
def buildTarget (o : Opts) (bin : Bool) (w : World) (inv : List Str) (units : List TUnit) (ks : List U) (c : Cache U Obj Exe) :
    Cache U Obj Exe × Option Exe :=
  let F := H.of (ks.map .num ++ [.text o.link])
  let done (c : Cache U Obj Exe) (e : Exe) : Cache U Obj Exe × Option Exe :=
    (if bin then { c with exe := fun q => if q = F then none else c.exe q } else c, some e)
  match (if o.nocache then none else c.exe F) with
  | some e => done c e
  | none =>
    match compileAll T o w c 0 (units.zip ks) with
    | none => (c, none)
    | some objs =>
      if (objs.any (·.isSome)) ∧ ¬ (∀ p ∈ inv, w.stat1 p = w.stat0 p) then (c, none)
      else
        let c := { c with obj := persist c.obj ks objs }
        match (ks.mapM c.obj).bind (T.ld o.link) with
        | none => (c, none)
        | some e => done { c with exe := fun q => if q = F then some e else c.exe q } e

/-- src/build.fu:360-834 `build`, without tests and sources: the state of the workspace, and the executable unless it fails. -/
def build (fuel : Nat) (o : Opts) (bin : Bool) (w : World) (units : List TUnit) (c : Cache U Obj Exe) : Cache U Obj Exe × Option Exe :=
  match keys H L w.src fuel o.gcc ⟨fun _ => H.zero, []⟩ units with
  | none => (c, none)
  | some (s, ks) => buildTarget H T o bin w s.inv units ks c

end Verif.Build
