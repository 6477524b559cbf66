import Verif.ResolveSpec
import Verif.Path
/-!
# Model of file lookup: src/context.fu:11-161

`exist p` is `file::size(p) >= 0`.  The maps `ctx.fuzzy` and `ctx.files` (flat.fu, C20) are functions.
-/
namespace Verif.Resolve
open Verif

/-- A map from strings to strings. -/
abbrev Map := Str → Option Str

/-- `map.get(key)`: an empty string if there is none. -/
def Map.get (c : Map) (k : Str) : Str := (c k).getD []

/-- `map.set(key, value)`. -/
def Map.set (c : Map) (k v : Str) : Map := fun x => if x = k then some v else c x

/-- `"\v"`, which marks a missing file in the caches. -/
abbrev vt : Byte := 11#8

/-- src/context.fu:20-43 `tryResolve`; `rec` is `resolveFile(from, name)`. -/
def tryResolve (exist : Str → Bool) (fudir : Str) (rec : Map → Str → Option (Map × Str)) (c : Map) (dir name : Str) : Option (Map × Str) :=
  if exist (dir ++ name) then some (c, dir ++ name)
  else match Path.dirname dir with
    | none => none
    | some fallback =>
      if fallback = [] ∨ fallback.length ≥ dir.length then
        if fudir.getLast? = some (ch '/') ∧ exist (fudir ++ str "lib/" ++ name) = true then some (c, fudir ++ str "lib/" ++ name)
        else some (c, [])
      else rec c fallback

/-- src/context.fu:11-48 `resolveFile(from, name)`.  The first argument bounds the depth of the recursion; `none`: it was
reached, or a fault. -/
def lookup (exist : Str → Bool) (fudir : Str) : Nat → Map → Str → Str → Option (Map × Str)
  | 0, _, _, _ => none
  | n + 1, c, dir, name =>
    if c.get (dir ++ name) ≠ [] then some (c, if c.get (dir ++ name) = [vt] then [] else c.get (dir ++ name))
    else match tryResolve exist fudir (fun c d => lookup exist fudir n c d name) c dir name with
      | none => none
      | some (c, r) => some (c.set (dir ++ name) (if r = [] then [vt] else r), r)

/-- `s.find(c, start)`: the first position from `start` on (src/prelude.fu:329-343, proved in `Prelude.find_window`); `none` is -1. -/
def findFrom (s : Str) (c : Byte) (start : Nat) : Option Nat := ((s.drop start).findIdx? (· = c)).map (· + start)

/-- `name[name.find(last: '/') + 1 ..]` (src/helpers.fu:308-314 `find(last:)`, -1 if there is none). -/
def afterSlash (s : Str) : Str :=
  match (s.reverse.findIdx? (· = ch '/')) with
  | some k => s.drop (s.length - k)
  | none => s

/-- `a || next` on strings. -/
def orElse (a : Option (Map × Str)) (next : Map → Option (Map × Str)) : Option (Map × Str) :=
  match a with
  | none => none
  | some (c, r) => if r ≠ [] then some (c, r) else next c

/-- src/context.fu:102-106 `run(strategy)`; an empty string is a failure. -/
def run (strategy : Map → Str → Option (Map × Str)) (c : Map) (name nested alt : Str) : Option (Map × Str) :=
  orElse (strategy c name) fun c =>
  orElse (if nested ≠ [] then strategy c nested else some (c, [])) fun c =>
  if alt ≠ [] then strategy c alt else some (c, [])

/-- src/context.fu:71-98: the names to look for. -/
def names (name : Str) : Str × Str × Str :=
  if str ".fu" <:+ name then (name, [], [])
  else
    let (name, alt) :=
      match findFrom name (ch '\t') 0 with
      | some i =>
        if 0 < i ∧ i < name.length - 1 ∧ findFrom name (ch '\t') (i + 1) = none then
          (name.take i, name.take i ++ str "/" ++ name.drop (i + 1) ++ str ".fu")
        else (name, [])
      | none => (name, [])
    (name ++ str ".fu", name ++ str "/" ++ afterSlash name ++ str ".fu", alt)

/-- src/context.fu:50-57 `testSuite_resolvePrepopulatedFile`; `prep p` is `ctx.files.has(p)`. -/
def prepopulated (prep : Str → Bool) (dir : Str) (c : Map) (name : Str) : Option (Map × Str) :=
  some (c, if prep (dir ++ name) then dir ++ name else [])

/-- src/context.fu:59-116 `resolveFile(path)`. -/
def resolveFile (exist prep : Str → Bool) (fudir : Str) (c : Map) (path : Str) : Option (Map × Str) :=
  match findFrom path vt 0 with
  | some i =>
    if 0 < i ∧ i < path.length - 1 ∧ findFrom path vt (i + 1) = none then
      let dir := path.take i
      let ns := names (path.drop (i + 1))
      orElse (run (fun c n => lookup exist fudir (dir.length + 1) c dir n) c ns.1 ns.2.1 ns.2.2) fun c =>
      orElse (run (prepopulated prep dir) c ns.1 ns.2.1 ns.2.2) fun c =>
      some (c, path)
    else some (c, path)
  | none => some (c, path)

/-! ## The cache of file contents -/

/-- lib/ascii.fu:34-44 `lower`. -/
def lower (s : Str) : Str := s.map fun c => if 65 ≤ c.toNat ∧ c.toNat ≤ 90 then BitVec.ofNat 8 (c.toNat + 32) else c

inductive FErr where
  | clash | os (errno : Nat)
  deriving DecidableEq

/-- src/context.fu:121-143 `setFile`. -/
def setFile (files : Map) (path data : Str) : Except FErr Map :=
  if data ≠ [] then
    let caseless := lower path ++ [0#8]
    if files.get caseless ≠ [] then .error .clash
    else .ok ((files.set caseless path).set path data)
  else .ok (files.set path [vt])

/-- src/context.fu:145-161 `getFile`.  `disk` is what reading the path gives: the content, nothing (ENOENT), or another error. -/
def getFile (disk : Str → Except Nat Str) (files : Map) (path : Str) : Except FErr (Map × Str) :=
  let cached := files.get path
  if cached ≠ [] then .ok (files, if cached = [vt] then [] else cached)
  else match disk path with
    | .error e => .error (.os e)
    | .ok data =>
      match setFile files path data with
      | .error e => .error e
      | .ok files => .ok (files, data)

end Verif.Resolve
