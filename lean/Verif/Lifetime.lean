import Verif.Basic
/-!
# Model of src/lifetime.fu: encoded lifetimes

A lifetime is a byte string: a sequence of regions, each a 7-bit encoded number followed by a list of paths.  The model
follows the fu source on these bytes.

Simplifications.  The assertions under `SELF_TEST` (which abort the compiler) are not modelled.  `i32` sums of offsets and
counts do not wrap around.  A shift of a `u32` by 32 or more (undefined in C++) gives zero; `p7_leb` shows that no such
shift happens on what `append7bit` writes.  The loops over paths and regions carry fuel and return `none` when it runs
out; `walkPaths_enc`, `merge_enc` and `Lifetime_each_enc` show that it does not on the encodings of lifetimes.
-/
namespace Verif.Lifetime
open Verif

/-- src/lifetime.fu:7. -/
def SR_empty : Str := [0#8, 0#8]

/-- src/lifetime.fu:23-25. -/
def byte_STATIC : Byte := 0b0001#8
def byte_ZEROES : Byte := 0b0101#8
def byte_TEMP : Byte := 0b1001#8

/-- src/lifetime.fu:27. -/
def isZeroes (r : BitVec 32) : Bool := r == 0b0101#32
/-- src/lifetime.fu:28. -/
def isStaticOrZeroes (r : BitVec 32) : Bool := r &&& 11#32 == 1#32
/-- src/lifetime.fu:29. -/
def isTemporary (r : BitVec 32) : Bool := r == 0b1001#32
/-- src/lifetime.fu:30. -/
def isArgIdx (r : BitVec 32) : Bool := r &&& 3#32 == 3#32

/-- src/lifetime.fu:34-36. -/
def Region_STATIC : Str := byte_STATIC :: SR_empty
def Region_ZEROES : Str := byte_ZEROES :: SR_empty
def Region_TEMP : Str := byte_TEMP :: SR_empty

/-- The loop of `parse7bit`, src/lifetime.fu:40-52, on the bytes from the offset on: the value and how many bytes were
read.  `c` is the last byte read.  `c.u32` sign-extends (`byte` is `char`), so `c.u32 >= 128` when the top bit is set. -/
def p7 : Str → Nat → BitVec 32 → Byte → BitVec 32 × Nat
  | [], shift, result, c => (result ||| (c.signExtend 32 <<< shift), 0)
  | c :: rest, shift, result, _ =>
    if c.toNat ≥ 128 then
      let (v, n) := p7 rest (shift + 7) (result ||| ((c.signExtend 32 &&& 0x7f#32) <<< shift)) c
      (v, n + 1)
    else (result ||| (c.signExtend 32 <<< shift), 1)

/-- src/lifetime.fu:39-53 `parse7bit`: the value and the new offset. -/
def parse7bit (str : Str) (offset : Nat) : BitVec 32 × Nat :=
  let (v, n) := p7 (str.drop offset) 0 0#32 0#8
  (v, offset + n)

/-- src/lifetime.fu:55-64 `append7bit`. -/
def append7bit (str : Str) (v : BitVec 32) : Str :=
  if _h : v.toNat ≥ 128 then append7bit (str ++ [(v ||| 0x80#32).setWidth 8]) (v >>> 7)
  else str ++ [v.setWidth 8]
termination_by v.toNat
decreasing_by
  rw [BitVec.toNat_ushiftRight, Nat.shiftRight_eq_div_pow]; omega

/-- src/lifetime.fu:238-242 `SubRegion`. -/
structure SubRegion where
  flatCount : Nat
  flatOffset : Nat
deriving DecidableEq, Repr

/-- src/lifetime.fu:244 `SubRegion[]` and `Paths`. -/
abbrev SPath := List SubRegion
abbrev Paths := List SPath

/-- The body of the inner loop of `walkPaths`, src/lifetime.fu:107-118: the subregion, whether it is the last of its path,
whether its path is the last, and the new offset. -/
def readSub (str : Str) (offset : Nat) : SubRegion × Bool × Bool × Nat :=
  let (raw_flatOffset, o1) := parse7bit str offset
  let isLastSubRegion := raw_flatOffset.toNat % 2 == 0
  let (raw_flatCount, o2) := if isLastSubRegion then parse7bit str o1 else (3#32, o1)
  (⟨(raw_flatCount >>> 1).toNat, (raw_flatOffset >>> 1).toNat⟩, isLastSubRegion, raw_flatCount.toNat % 2 == 0, o2)

/-- What `walkPaths` tells its visitors about a path: its subregions, where the last one begins (`subregion0`), whether it
is the last path, and where it ends. -/
structure PathInfo where
  path : SPath
  sub0 : Nat
  isLast : Bool
  stop : Nat
deriving DecidableEq, Repr

/-- The inner loop of `walkPaths`, src/lifetime.fu:103-147. -/
def readPath (str : Str) : Nat → Nat → Option PathInfo
  | 0, _ => none
  | n + 1, offset => do
    let (sr, lastSub, lastPath, o) := readSub str offset
    if lastSub then some ⟨[sr], offset, lastPath, o⟩
    else
      let p ← readPath str n o
      some { p with path := sr :: p.path }

/-- The outer loop of `walkPaths`, src/lifetime.fu:92-155: for each path, the offset where it begins and the path; and the
final offset. -/
def readPaths (str : Str) : Nat → Nat → Option (List (Nat × PathInfo) × Nat)
  | 0, _ => none
  | n + 1, offset => do
    let p ← readPath str (str.length + 2) offset
    if p.isLast then some ([(offset, p)], p.stop)
    else
      let (ps, o) ← readPaths str n p.stop
      some ((offset, p) :: ps, o)

/-- src/lifetime.fu:79-163 `walkPaths`. -/
def walkPaths (str : Str) (offset : Nat) : Option (List (Nat × PathInfo) × Nat) := readPaths str (str.length + 2) offset

/-- src/lifetime.fu:265-284 `parsePaths`; also the paths `parsePaths_each` (src/lifetime.fu:246-263) visits, in order. -/
def parsePaths (str : Str) : Option Paths := do
  let (ps, _) ← walkPaths str 0
  some (ps.map (fun p => p.2.path))

/-- src/lifetime.fu:317-336 `appendSubRegion`. -/
def appendSubRegion (str : Str) (flatCount flatOffset : Nat) (isLastSubRegion isLastPath : Bool) : Str :=
  let str := append7bit str (BitVec.ofNat 32 flatOffset <<< 1 ||| (if isLastSubRegion then 0#32 else 1#32))
  if isLastSubRegion then append7bit str (BitVec.ofNat 32 flatCount <<< 1 ||| (if isLastPath then 0#32 else 1#32))
  else str

/-- The inner loop of `appendPaths`, src/lifetime.fu:359-382. -/
def appendPath (isLastPath : Bool) : Str → SPath → Str
  | str, [] => str
  | str, [sr] => appendSubRegion str sr.flatCount sr.flatOffset true isLastPath
  | str, sr :: rest => appendPath isLastPath (appendSubRegion str sr.flatCount sr.flatOffset false isLastPath) rest

/-- src/lifetime.fu:338-388 `appendPaths`. -/
def appendPaths : Str → Paths → Str
  | str, [] => str
  | str, [p] => appendPath true str p
  | str, p :: rest => appendPaths (appendPath false str p) rest

/-- The comparison in the loop of `Paths_union`, src/lifetime.fu:401-421: whether they agree up to the last common
subregion, and which of the two last common subregions lies within the other (`path` in `host`, `host` in `path`). -/
def wraps (host path : SPath) : Bool × Bool :=
  let minL := min path.length host.length
  if path.take (minL - 1) == host.take (minL - 1) then
    match host[minL - 1]?, path[minL - 1]? with
    | some a, some b =>
      let a0 := a.flatOffset
      let a1 := a0 + a.flatCount
      let b0 := b.flatOffset
      let b1 := b0 + b.flatCount
      (a0 ≤ b0 && a1 ≥ b1, a0 ≥ b0 && a1 ≤ b1)
    | _, _ => (false, false)
  else (false, false)

/-- The loop of `Paths_union`, src/lifetime.fu:398-438; `kept` are the paths of `result` that it has passed. -/
def unionLoop (path : SPath) : Paths → Paths → Paths × Bool
  | kept, [] => (kept ++ [path], true)
  | kept, host :: rest =>
    let (path_within_host, host_within_path) := wraps host path
    if path_within_host && path.length ≥ host.length then (kept ++ host :: rest, false)
    else if host_within_path && host.length ≥ path.length then unionLoop path kept rest
    else unionLoop path (kept ++ [host]) rest

/-- src/lifetime.fu:393-443 `Paths_union(ref result, path)`. -/
def addPath (result : Paths) (path : SPath) : Paths := (unionLoop path [] result).1

/-- src/lifetime.fu:448-457 `Paths_union(ref str, a, b)`. -/
def Paths_union (str a b : Str) : Option Str := do
  let pa ← parsePaths a
  let pb ← parsePaths b
  some (appendPaths str (pb.foldl addPath pa))

/-- `overlap`, src/lifetime.fu:479-481 and 524-526. -/
def overlap (a b : SubRegion) : Int :=
  min ((b.flatOffset : Int) + b.flatCount - a.flatOffset) ((a.flatOffset : Int) + a.flatCount - b.flatOffset)

/-- The loop over the common subregions, src/lifetime.fu:474-499: `none` when it leaves through `continue :EACH_B_PATH`,
having cleared `inter`. -/
def interLoop : SPath → SPath → SPath → Option SPath
  | a :: as, b :: bs, inter =>
    if overlap a b ≤ 0 then none
    else interLoop as bs (inter ++ [⟨min a.flatCount b.flatCount, max a.flatOffset b.flatOffset⟩])
  | _, _, inter => some inter

/-- The visit of a pair of paths in `Paths_inter`, src/lifetime.fu:471-508.  The state is `(result, inter)`; note that
`inter` is not cleared after a pair that overlaps. -/
def interPair (a_path : SPath) (s : Paths × SPath) (b_path : SPath) : Paths × SPath :=
  match interLoop a_path b_path s.2 with
  | none => (s.1, [])
  | some inter =>
    let inter := inter ++ a_path.drop b_path.length
    let inter := inter ++ b_path.drop a_path.length
    (addPath s.1 inter, inter)

/-- src/lifetime.fu:459-515 `Paths_inter`, after the exchange of its arguments. -/
def Paths_inter' (str a b : Str) : Option Str := do
  let pa ← parsePaths a
  let pb ← parsePaths b
  some (appendPaths str (pa.foldl (fun s a_path => pb.foldl (interPair a_path) s) ([], [])).1)

/-- src/lifetime.fu:459-515 `Paths_inter`. -/
def Paths_inter (str a b : Str) : Option Str :=
  if a.length < b.length then Paths_inter' str b a else Paths_inter' str a b

/-- The test of a pair of paths in `Paths_hasInter` without usage masks, src/lifetime.fu:518-533. -/
def pathsOverlap : SPath → SPath → Bool
  | a :: as, b :: bs => if overlap a b ≤ 0 then false else pathsOverlap as bs
  | _, _ => true

/-- src/lifetime.fu:520-612 `Paths_hasInter` without usage masks (`rw_left` and `rw_right` not given). -/
def Paths_hasInter (a b : Str) : Option Bool := do
  let pa ← parsePaths a
  let pb ← parsePaths b
  some (pa.any (fun p => pb.any (pathsOverlap p)))

/-- src/module.fu:539-540 `sign_rotate`. -/
def sign_rotate (v : BitVec 32) : BitVec 32 := (v <<< 1) ^^^ (if v.slt 0#32 then 0xffffffff#32 else 0#32)

/-- src/module.fu:542-543 `sign_unrotate`. -/
def sign_unrotate (v : BitVec 32) : BitVec 32 := (v >>> 1) ^^^ (if v &&& 1#32 ≠ 0#32 then 0xffffffff#32 else 0#32)

/-- src/lifetime.fu:662-672 `appendLocid`. -/
def appendLocid (str : Str) (locid : BitVec 32) : Str := append7bit str (sign_rotate locid <<< 1)

/-- src/lifetime.fu:674-684 `unpackLocid`. -/
def unpackLocid (r : BitVec 32) : BitVec 32 := if r &&& 1#32 ≠ 0#32 then 0#32 else sign_unrotate (r >>> 1)

/-- src/lifetime.fu:689-701 `Lifetime_from(locid, flatCount)`. -/
def fromLocid (locid : BitVec 32) (flatCount : Nat) : Str := appendSubRegion (appendLocid [] locid) flatCount 0 true true

/-- src/lifetime.fu:703-713 `Lifetime_from(argidx, paths)`. -/
def fromArg (argidx : BitVec 32) (paths : Str) : Str := append7bit [] (argidx <<< 2 ||| 3#32) ++ paths

/-- src/lifetime.fu:717-727 `Lifetime_AAR`. -/
def AAR (locid : BitVec 32) : Str := appendLocid [] locid ++ SR_empty

/-- The comparison of regions in `merge`, src/lifetime.fu:814-832; `l <> r` is the three-way comparison. -/
def cmpRegion (l r : BitVec 32) : Ordering :=
  if isStaticOrZeroes l != isStaticOrZeroes r then (if isStaticOrZeroes r then .lt else .gt)
  else if isTemporary l != isTemporary r then (if isTemporary r then .gt else .lt)
  else if l &&& 3#32 == 2#32 then
    (if r &&& 3#32 == 2#32 then compare l.toNat r.toNat else .gt)
  else if r &&& 3#32 == 2#32 then .lt
  else compare r.toNat l.toNat

/-- `a[i .. j]`. -/
def slice (s : Str) (i j : Nat) : Str := (s.drop i).take (j - i)

/-- One side of the merge, src/lifetime.fu:747-763: `l_start`, `l_paths0`, `l_offset`, `l` and `l_dirty`. -/
structure Side where
  start : Nat
  paths0 : Nat
  offset : Nat
  r : BitVec 32
  dirty : Bool
deriving DecidableEq, Repr

/-- src/lifetime.fu:747-763: the initial values. -/
def Side.init : Side := ⟨0, 0, 0, 0#32, true⟩

/-- Reading the next region of a side, src/lifetime.fu:772-789 and 791-808: `some none` when the side is exhausted. -/
def refresh (chars : Str) (s : Side) : Option (Option Side) :=
  if s.dirty then
    if s.offset < chars.length then do
      let (r, o) := parse7bit chars s.offset
      let (_, o') ← walkPaths chars o
      some (some ⟨s.offset, o, o', r, false⟩)
    else some none
  else some (some s)

/-- How the merge ends: a visitor returned, or one side was exhausted and the rest of the other is handed to `rest`. -/
inductive Merged (σ β : Type) where
  | ret (b : β)
  | rest (s : σ) (chars : Str)

/-- The visitors of `merge`.  `both` gets the raw region, the paths of both sides and the region number, and may return. -/
structure Visitors (σ β : Type) where
  both : σ → Str → Str → Str → BitVec 32 → Option (β ⊕ σ)
  either : σ → Str → σ
  leftDone : σ → Option β
  rightDone : σ → Option β

/-- The loop of `merge`, src/lifetime.fu:768-877, for callers that give `rest`. -/
def mergeLoop {σ β : Type} (v : Visitors σ β) (lc rc : Str) : Nat → Side → Side → σ → Option (Merged σ β)
  | 0, _, _, _ => none
  | n + 1, l, r, s => do
    match (← refresh lc l) with
    | none =>
      match v.leftDone s with
      | some b => some (.ret b)
      | none => some (.rest s (rc.drop (if r.dirty then r.offset else r.start)))
    | some l =>
      match (← refresh rc r) with
      | none =>
        match v.rightDone s with
        | some b => some (.ret b)
        | none => some (.rest s (lc.drop (if l.dirty then l.offset else l.start)))
      | some r =>
        match cmpRegion l.r r.r with
        | .eq =>
          match (← v.both s (slice lc l.start l.paths0) (slice lc l.paths0 l.offset) (slice rc r.paths0 r.offset) r.r) with
          | .inl b => some (.ret b)
          | .inr s => mergeLoop v lc rc n { l with dirty := true } { r with dirty := true } s
        | .lt => mergeLoop v lc rc n { l with dirty := true } r (v.either s (slice lc l.start l.offset))
        | .gt => mergeLoop v lc rc n l { r with dirty := true } (v.either s (slice rc r.start r.offset))

/-- src/lifetime.fu:732-883 `merge`. -/
def merge {σ β : Type} (v : Visitors σ β) (lc rc : Str) (s : σ) : Option (Merged σ β) :=
  mergeLoop v lc rc (lc.length + rc.length + 2) Side.init Side.init s

/-- The visitors of `Lifetime_union`, src/lifetime.fu:893-921. -/
def unionVisitors (a b : Str) : Visitors Str Str where
  both := fun result r_both sr_left sr_right _ =>
    let result := result ++ r_both
    if sr_left == sr_right || sr_left == SR_empty then some (.inr (result ++ sr_left))
    else if sr_right == SR_empty then some (.inr (result ++ sr_right))
    else do some (.inr (← Paths_union result sr_left sr_right))
  either := fun result raw => result ++ raw
  leftDone := fun result => if result.isEmpty then some b else none
  rightDone := fun result => if result.isEmpty then some a else none

/-- src/lifetime.fu:888-925 `Lifetime_union`. -/
def Lifetime_union (a b : Str) : Option Str := do
  match (← merge (unionVisitors a b) a b []) with
  | .ret r => some r
  | .rest result chars => some (result ++ chars)

/-- The visitors of `Lifetime_inter`, src/lifetime.fu:933-959.  When the intersection of the paths is empty, `continue`
leaves the result as it was. -/
def interVisitors : Visitors Str Unit where
  both := fun result r_both sr_left sr_right _ =>
    if sr_left == sr_right || sr_right == SR_empty then some (.inr (result ++ r_both ++ sr_left))
    else if sr_left == SR_empty then some (.inr (result ++ r_both ++ sr_right))
    else do
      let inter ← Paths_inter [] sr_left sr_right
      some (.inr (if inter.isEmpty then result else result ++ r_both ++ inter))
  either := fun result _ => result
  leftDone := fun _ => none
  rightDone := fun _ => none

/-- src/lifetime.fu:927-963 `Lifetime_inter`. -/
def Lifetime_inter (a b : Str) : Option Str := do
  match (← merge interVisitors a b []) with
  | .ret _ => none
  | .rest result _ => some result

/-- The visitors of `Lifetime_hasInter` without usage masks, src/lifetime.fu:973-992. -/
def hasInterVisitors : Visitors Unit Unit where
  both := fun _ _ sr_left sr_right _ =>
    if sr_left == sr_right then some (.inl ())
    else if sr_left == SR_empty || sr_right == SR_empty then some (.inl ())
    else do
      if (← Paths_hasInter sr_left sr_right) then some (.inl ()) else some (.inr ())
  either := fun _ _ => ()
  leftDone := fun _ => none
  rightDone := fun _ => none

/-- src/lifetime.fu:965-995 `Lifetime_hasInter` without usage masks. -/
def Lifetime_hasInter (a b : Str) : Option Bool := do
  match (← merge hasInterVisitors a b ()) with
  | .ret _ => some true
  | .rest _ _ => some false

/-- The visitors of `Lifetime_interLocids`, src/lifetime.fu:1001-1019. -/
def interLocidsVisitors : Visitors (List (BitVec 32)) Unit where
  both := fun result _ sr_left sr_right r =>
    let locid := unpackLocid r
    if locid == 0#32 then some (.inr result)
    else if sr_left == sr_right || sr_left == SR_empty || sr_right == SR_empty then some (.inr (result ++ [locid]))
    else do
      some (.inr (if (← Paths_hasInter sr_left sr_right) then result ++ [locid] else result))
  either := fun result _ => result
  leftDone := fun _ => none
  rightDone := fun _ => none

/-- src/lifetime.fu:997-1023 `Lifetime_interLocids`. -/
def Lifetime_interLocids (a b : Str) : Option (List (BitVec 32)) := do
  match (← merge interLocidsVisitors a b []) with
  | .ret _ => none
  | .rest result _ => some result

/-- The loop of `Lifetime_each`, src/lifetime.fu:1036-1066: for each region its number, where it begins, where its paths
begin and where it ends. -/
def eachLoop (chars : Str) : Nat → Nat → Option (List (BitVec 32 × Nat × Nat × Nat))
  | 0, _ => none
  | n + 1, offset =>
    if offset < chars.length then do
      let (r, sr) := parse7bit chars offset
      let (_, o) ← walkPaths chars sr
      let rest ← eachLoop chars n o
      some ((r, offset, sr, o) :: rest)
    else some []

/-- src/lifetime.fu:1036-1066 `Lifetime_each`: what the visitor is given: the region number, `r_raw` and `paths`. -/
def Lifetime_each (chars : Str) : Option (List (BitVec 32 × Str × Str)) := do
  let l ← eachLoop chars (chars.length + 1) 0
  some (l.map (fun (r, o0, sr, o) => (r, slice chars o0 sr, slice chars sr o)))

/-- src/lifetime.fu:1149-1150 `hasTemporary`. -/
def hasTemporary (chars : Str) : Bool := Region_TEMP.isPrefixOf chars

/-- src/lifetime.fu:1152-1157 `hasStatic`. -/
def hasStatic (chars : Str) : Bool :=
  let n := chars.length
  n ≥ 3 && chars.drop (n - 2) == SR_empty &&
    match chars[n - 3]? with
    | some c => isStaticOrZeroes (c.signExtend 32)
    | none => false

/-- src/lifetime.fu:1204-1206 `Lifetime_has(lifetime, locid)`. -/
def Lifetime_has (chars : Str) (search : BitVec 32) : Option Bool := do
  some ((← Lifetime_each chars).any (fun p => unpackLocid p.1 == search))

/-- `Lifetime_op`, src/lifetime.fu:1235-1261, with `each` on the paths of one region. -/
def Lifetime_op (lt : Str) (each : Str → Str → Option Str) : Option Str := do
  let regions ← Lifetime_each lt
  regions.foldlM (fun result (_, r_raw, paths) =>
    let result := result ++ r_raw
    if paths == SR_empty then some (result ++ paths) else each result paths) []

/-- src/lifetime.fu:1263-1284 `Lifetime_op_field`. -/
def Lifetime_op_field (lt : Str) (flatCount flatOffset : Nat) : Option Str :=
  Lifetime_op lt (fun result paths => do
    let (ps, _) ← walkPaths paths 0
    some (ps.foldl (fun result p =>
      match p.2.path.getLast? with
      | some sr => appendSubRegion (result ++ slice paths p.1 p.2.sub0) flatCount (sr.flatOffset + flatOffset) true p.2.isLast
      | none => result) result))

/-- src/lifetime.fu:1319-1345 `Lifetime_op_deref`. -/
def Lifetime_op_deref (lt : Str) (flatCount : Nat) : Option Str :=
  Lifetime_op lt (fun result paths => do
    let (ps, _) ← walkPaths paths 0
    some (ps.foldl (fun result p =>
      match p.2.path.getLast? with
      | some sr =>
        let result := appendSubRegion (result ++ slice paths p.1 p.2.sub0) sr.flatCount sr.flatOffset false p.2.isLast
        appendSubRegion result flatCount 0 true p.2.isLast
      | none => result) result))

/-- The inner walk of `Lifetime_op_join`, src/lifetime.fu:1375-1410, over the subregions of one child path. -/
def joinChild (parentRaw : Str) (parentOffset : Nat) (lastPath : Bool) (result : Str) : Bool → SPath → Str
  | _, [] => result
  | first, c :: rest =>
    let result := if first then result ++ parentRaw else result
    let off := if first then c.flatOffset + parentOffset else c.flatOffset
    joinChild parentRaw parentOffset lastPath (appendSubRegion result c.flatCount off rest.isEmpty lastPath) false rest

/-- src/lifetime.fu:1347-1413 `Lifetime_op_join`. -/
def Lifetime_op_join (lt child : Str) : Option Str :=
  Lifetime_op lt (fun result parent => do
    let (ps, _) ← walkPaths parent 0
    let (cs, _) ← walkPaths child 0
    some (ps.foldl (fun result p =>
      match p.2.path.getLast? with
      | some sr => cs.foldl (fun result c =>
          joinChild (slice parent p.1 p.2.sub0) sr.flatOffset (p.2.isLast && c.2.isLast) result true c.2.path) result
      | none => result) result))

end Verif.Lifetime
