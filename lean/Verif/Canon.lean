import Verif.Target
/-!
# Type names and generic labels - src/canon.fu, src/usertypes.fu, src/quals.fu

The canonical name of a type is a string.  An array is `[` + qualifiers + item + `]`; a type made by a template carries
a label `(T a:b|U c)`: for each template (`T`, two varints) its arguments, each qualifiers + canonical name.
Slices `x[i .. j]` of strings are lists; taking one out of bounds is `ub`.
-/
namespace Verif.Canon
open Verif Verif.Helpers

/-- `x[i .. j]` -/
def slice (s : Str) (i j : Nat) : Except Err Str :=
  if i ≤ j ∧ j ≤ s.length then .ok ((s.take j).drop i) else .error .ub

/-- src/prelude.fu:348-352, one more than the result of `find(c)`: 0 if there is none (the search itself is modelled and
proved in Verif/Prelude.lean; this is its specification). -/
def findPlus1 (s : Str) (c : Byte) : Nat := if c ∈ s then s.idxOf c + 1 else 0

/-- src/prelude.fu `starts(with)` for one byte -/
def startsWith (s : Str) (c : Byte) : Bool := s.head? == some c
/-- src/prelude.fu `ends(with)` for one byte -/
def endsWith (s : Str) (c : Byte) : Bool := s.getLast? == some c

/-- src/canon.fu:31-59 (`scan`): whether it crossed a parenthesis, the new offset, whether it ran into the end.
`depth` is an `int` in the code and may go below zero. -/
def scan (s : Str) (sep : Byte) (offset : Nat) (depth : Int := 0) (isDeep : Bool := false) : Bool × Nat × Bool :=
  if h : offset < s.length then
    let c := s[offset]
    if c = ch '(' then scan s sep (offset + 1) (depth + 1) true
    else if c = ch ')' then scan s sep (offset + 1) (depth - 1) isDeep
    else if c = sep ∧ depth = 0 then (isDeep, offset, false)
    else scan s sep (offset + 1) depth isDeep
  else (isDeep, offset, true)
termination_by s.length - offset

/-- `scan` never moves back, and stops before the end unless it says so. -/
theorem scan_offset (s : Str) (sep : Byte) (offset : Nat) (depth : Int) (isDeep : Bool) :
    offset ≤ (scan s sep offset depth isDeep).2.1 ∧
    ((scan s sep offset depth isDeep).2.2 = false → (scan s sep offset depth isDeep).2.1 < s.length) := by
  induction hn : s.length - offset generalizing offset depth isDeep with
  | zero =>
    unfold scan
    rw [dif_neg (by omega)]
    simp
  | succ n ih =>
    unfold scan
    have hlt : offset < s.length := by omega
    rw [dif_pos hlt]
    dsimp only
    split
    · obtain ⟨a, b⟩ := ih (offset + 1) (depth + 1) true (by omega)
      exact ⟨by omega, b⟩
    · split
      · obtain ⟨a, b⟩ := ih (offset + 1) (depth - 1) isDeep (by omega)
        exact ⟨by omega, b⟩
      · split
        · exact ⟨Nat.le_refl _, fun _ => hlt⟩
        · obtain ⟨a, b⟩ := ih (offset + 1) depth isDeep (by omega)
          exact ⟨by omega, b⟩

theorem parseVarint_offset {s : Str} {o : Nat} {v : BitVec 32} {o' : Nat} (e : parseVarint s o = .ok (v, o')) : o ≤ o' := by
  have key : ∀ n o sh r c q, s.length - o = n → parseVarintLoop s o sh r c = .ok q → o ≤ q.1 := by
    intro n
    induction n with
    | zero =>
      intro o sh r c q hn e
      unfold parseVarintLoop at e
      rw [dif_neg (by omega)] at e
      cases e
      exact Nat.le_refl _
    | succ n ih =>
      intro o sh r c q hn e
      unfold parseVarintLoop at e
      rw [dif_pos (by omega)] at e
      dsimp only at e
      split at e
      · split at e
        · cases e
        · have := ih _ _ _ _ _ (by omega) e; omega
      · cases e; exact Nat.le_succ _
  unfold parseVarint at e
  simp only [bind, Except.bind] at e
  split at e
  · cases e
  · rename_i q hq
    have := key _ _ _ _ _ _ rfl hq
    split at e
    · cases e
    · split at e
      · cases e
      · cases e; exact this

theorem parseGlobal_offset {s : Str} {o : Nat} {t : Target.Packed} {o' : Nat} (e : Target.parseGlobal s o = .ok (t, o')) : o ≤ o' := by
  unfold Target.parseGlobal at e
  simp only [bind, Except.bind] at e
  split at e
  · cases e
  · rename_i h1
    have := parseVarint_offset h1
    split at e
    · cases e
    · rename_i h2
      have := parseVarint_offset h2
      split at e
      · cases e
      · cases e; omega

/-- What the visitor of `eachSubPattern` is told: the arguments' text, the template, whether they contain labels
themselves, whether it is the last. -/
structure Sub where
  text : Str
  specOf : Target.Packed
  isDeep : Bool
  isLast : Bool

/-- src/canon.fu:65-85 (`eachSubPattern`) from `offset` on.  The visitor returns `some` to leave the loop (`continue` of
an outer loop, `return`). -/
def eachSubFrom {β : Type} (pattern : Str) (visit : Sub → Except Err (Option β)) (offset : Nat) : Except Err (Option β) :=
  match _e : Target.parseGlobal pattern offset with
  | .error e => .error e
  | .ok (specOf, start) =>
    let r := scan pattern (ch '|') start
    match slice pattern start r.2.1 with
    | .error e => .error e
    | .ok text =>
      match visit { text := text, specOf := specOf, isDeep := r.1, isLast := r.2.2 } with
      | .error e => .error e
      | .ok (some b) => .ok (some b)
      | .ok none =>
        if _h : r.2.2 = true then .ok none
        else eachSubFrom pattern visit (r.2.1 + 1)
termination_by pattern.length - offset
decreasing_by
  have h1 := parseGlobal_offset _e
  have h2 := scan_offset pattern (ch '|') start 0 false
  have h3 := h2.2 (by simpa using _h)
  omega

/-- src/canon.fu:65-85 (`eachSubPattern`) -/
def eachSubPattern {β : Type} (pattern : Str) (visit : Sub → Except Err (Option β)) : Except Err (Option β) :=
  eachSubFrom pattern visit 0

/-- What the visitor of `eachArgSpecType` is told. -/
structure Arg where
  text : Str
  isDeep : Bool
  isLast : Bool
  isFirst : Bool

/-- src/canon.fu:87-114 (`eachArgSpecType`) from `start` on: what the visitor sees -/
def argsFrom (sub : Str) (start : Nat) : Except Err (List Arg) :=
  let r := scan sub (ch ':') start
  match slice sub start r.2.1 with
  | .error e => .error e
  | .ok text =>
    let a : Arg := { text := text, isDeep := r.1, isLast := r.2.2, isFirst := start == 0 }
    if _h : r.2.2 = true then .ok [a]
    else match argsFrom sub (r.2.1 + 1) with
      | .error e => .error e
      | .ok as => .ok (a :: as)
termination_by sub.length - start
decreasing_by
  have h2 := scan_offset sub (ch ':') start 0 false
  have h3 := h2.2 (by simpa using _h)
  omega

/-- src/canon.fu:87-114 (`eachArgSpecType`) -/
def eachArgSpecType (sub : Str) : Except Err (List Arg) := argsFrom sub 0

/-- src/canon.fu:119-123 (`tryGetPattern`): `[]` if there is no label -/
def tryGetPattern (canon : Str) : Except Err Str :=
  if endsWith canon (ch ')') then slice canon (findPlus1 canon (ch '(')) (canon.length - 1) else .ok []

/-- src/canon.fu:125-130 (`trimPattern`): the string afterwards -/
def trimPattern (canon : Str) : Str :=
  if ch '(' ∈ canon then canon.take (canon.idxOf (ch '(')) else canon

/-- src/canon.fu:203-238: the split-zip of the two argument lists; `true` is `continue :NEXT_HOST_PAIR`. -/
def zipArgs (rec : Str → Str → Except Err Bool) (host guest : Str) (h0 g0 : Nat) : Except Err Bool :=
  let h := scan host (ch ':') h0
  let g := scan guest (ch ':') g0
  if h.2.2 ≠ g.2.2 then .ok false
  else
    match slice host h0 h.2.1 with
    | .error e => .error e
    | .ok hostItem =>
      match slice guest g0 g.2.1 with
      | .error e => .error e
      | .ok guestItem =>
        match rec hostItem guestItem with
        | .error e => .error e
        | .ok true => .ok true
        | .ok false =>
          if _h : h.2.2 = true then .ok false
          else zipArgs rec host guest (h.2.1 + 1) (g.2.1 + 1)
termination_by host.length - h0
decreasing_by
  have h2 := scan_offset host (ch ':') h0 0 false
  have h3 := h2.2 (by simpa using _h)
  omega

/-- src/canon.fu:186-240: the visitor of the inner `eachSubPattern` -/
def matchSub (rec : Str → Str → Except Err Bool) (host guest : Sub) : Except Err (Option Unit) :=
  if guest.specOf ≠ host.specOf then .ok none
  else if !host.isDeep && !guest.isDeep then .ok (if host.text = guest.text then some () else none)
  else if host.isDeep && guest.isDeep then
    match zipArgs rec host.text guest.text 0 0 with
    | .error e => .error e
    | .ok b => .ok (if b then some () else none)
  else .ok none

/-- src/canon.fu:184-244: the visitor of the outer `eachSubPattern`; `some ()` is `return false` -/
def matchHost (rec : Str → Str → Except Err Bool) (guestPattern : Str) (host : Sub) : Except Err (Option Unit) :=
  match eachSubPattern guestPattern (matchSub rec host) with
  | .error e => .error e
  | .ok (some ()) => .ok none
  | .ok none => .ok (some ())

/-- src/canon.fu:135-248 (`isCanonAssignable`), with the recursive call as a parameter.  `SELF_TEST` checks are left out. -/
def assignStep (rec : Str → Str → Except Err Bool) (host guest : Str) : Except Err Bool :=
  if !endsWith guest (ch ')') then
    if startsWith guest (ch '[') then
      if startsWith host (ch '[') then
        match slice host 1 (host.length - 1) with
        | .error e => .error e
        | .ok h =>
          match slice guest 1 (guest.length - 1) with
          | .error e => .error e
          | .ok g => rec h g
      else .ok false
    else .ok (host == guest)
  else
    let g0 := findPlus1 guest (ch '(')
    let g1 := guest.length - 1
    if !endsWith host (ch ')') then
      if g0 = 0 then .error .ub else .ok (host == guest.take (g0 - 1))
    else
      let h0 := findPlus1 host (ch '(')
      let h1 := host.length - 1
      if host.head? ≠ guest.head? then .ok false
      else
        match slice host h0 h1 with
        | .error e => .error e
        | .ok hp =>
          match slice guest g0 g1 with
          | .error e => .error e
          | .ok gp =>
            match eachSubPattern hp (matchHost rec gp) with
            | .error e => .error e
            | .ok (some ()) => .ok false
            | .ok none => .ok true

/-- src/canon.fu:135-248 (`isCanonAssignable`).  Every recursive call has a strictly shorter guest, so a budget of the
guest's length is never used up (`budget_enough` in Verif/CanonProps.lean). -/
def assignF : Nat → Str → Str → Except Err Bool
  | 0, _, _ => .error .ub
  | n + 1, host, guest => assignStep (assignF n) host guest

/-- src/canon.fu:135-248 (`isCanonAssignable`) -/
def isCanonAssignable (host guest : Str) : Except Err Bool := assignF (guest.length + 1) host guest

/-- src/canon.fu:18-24 (`canon_trySuper`): `[]` is "no" -/
def trySuper (a b : Str) : Except Err Str :=
  let (a, b) := if a.length > b.length then (b, a) else (a, b)
  match isCanonAssignable a b with
  | .error e => .error e
  | .ok r => .ok (if r then a else [])

/-- src/canon.fu:10-16 (`canon_tryIntersect`): `[]` is "no" -/
def tryIntersect (a b : Str) : Except Err Str :=
  let (a, b) := if a.length < b.length then (b, a) else (a, b)
  match isCanonAssignable a b with
  | .error e => .error e
  | .ok r => .ok (if r then a else [])

/-! ### how names are made -/

/-- src/context.fu:355-367 (`serializeType`): qualifiers, then the name; no name is a bug -/
def serializeType (quals : BitVec 32) (canon : Str) : Except Err Str :=
  if canon = [] then .error .thrown else .ok (appendVarint [] quals ++ canon)

/-- src/types.fu:374-376 (`createArray`): the name of an array of the item -/
def arrayCanon (quals : BitVec 32) (canon : Str) : Except Err Str := do
  let s ← serializeType quals canon
  .ok (str "[" ++ s ++ str "]")

/-- src/solver.fu:8424-8441: the loop of `TODO_FIX_getSpecPat` -/
def specPatLoop (specOf : Target.Packed) : List (BitVec 32 × Str) → Str → Except Err Str
  | [], pat => .ok pat
  | (q, c) :: rest, pat => do
    let pat ← if pat = [] then Target.appendGlobal (str "(") specOf else .ok (pat ++ str ":")
    let s ← serializeType q c
    specPatLoop specOf rest (pat ++ s)

/-- src/solver.fu:8417-8447 (`TODO_FIX_getSpecPat`): the label of a type made by template `specOf` from arguments of the
given types -/
def getSpecPat (specOf : Target.Packed) (args : List (BitVec 32 × Str)) : Except Err Str := do
  let pat ← specPatLoop specOf args []
  .ok (if pat = [] then pat else pat ++ str ")")

/-! ### names of user types -/

/-- src/quals.fu:62-84 (`basePrimPrefixLen`): the loop over the digits, from `offset` -/
def digitsEnd (s : Str) (offset : Nat) : Nat :=
  if h : offset < s.length then
    if Byte.lt s[offset] (ch '0') || Byte.lt (ch '9') s[offset] then offset else digitsEnd s (offset + 1)
  else offset
termination_by s.length - offset

/-- src/quals.fu:62-84 (`basePrimPrefixLen`) -/
def basePrimPrefixLen (s : Str) : Except Err Nat :=
  match s.head? with
  | none => .error .ub
  | some c =>
    if c ∈ [ch 'i', ch 'u', ch 'f', ch 'b', ch 'c', ch 'e', ch 'm'] then .ok (digitsEnd s 1) else .error .thrown

/-- src/usertypes.fu:7-24 (`parseUserTypeCanon`): module and zero-based index of the type -/
def parseUserTypeCanon (canon : Str) : Except Err (BitVec 32 × BitVec 32) :=
  match canon.head? with
  | none => .error .ub
  | some c => do
    let offset ← if c.toNat < 128 then (basePrimPrefixLen canon).map (· + 1) else .ok 1
    let (modid, offset) ← parseVarint canon offset
    let (globid, offset) ← parseVarint canon offset
    if offset = canon.length ∨ canon[offset]? = some (ch '(') then .ok (modid, globid - 1#32) else .error .thrown

/-- the `kind` of a user type, as far as its name depends on it -/
inductive Kind where
  | enum | flags | other
  deriving DecidableEq

/-- src/usertypes.fu:31-35: the sigil -/
def sigil (hash : BitVec 64) : Byte :=
  let hash := hash ^^^ (hash >>> 32)
  let hash := hash ^^^ (hash >>> 16)
  let hash := hash ^^^ (hash >>> 8)
  (hash ||| 128#64).setWidth 8

/-- src/usertypes.fu:26-66 (`createUserTypeCanon`) -/
def createUserTypeCanon (kind : Kind) (basePrim : Str) (modid index : BitVec 32) (specPat : Str) (hash : BitVec 64) :
    Except Err Str :=
  let res := basePrim ++ [sigil hash]
  if (0#32).sle modid && (0#32).sle index then
    let res := appendVarint (appendVarint res modid) (index + 1#32)
    match basePrim, res with
    | _ :: _, c :: rest =>
      if c = ch 'e' ∨ c = ch 'm' then .error .thrown
      else
        let c := if kind = .enum then ch 'e' else if kind = .flags then ch 'm' else c
        .ok (c :: rest ++ specPat)
    | _, res => .ok (res ++ specPat)
  else .error .thrown

end Verif.Canon
