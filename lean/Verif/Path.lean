import Verif.Prelude
/-!
# Model of lib/path.fu

Paths are byte strings; positions are `int` in the code and natural numbers here (paths below 2^31 bytes).
`none` is an out-of-bounds access.
-/
namespace Verif.Path
open Verif

/-- `'/'`. -/
abbrev slash : Byte := ch '/'

/-- lib/path.fu:4-9, 16-21: `for (mut i = path.len; i --> 0; )` with the `return` on `'.'` and the `break` on `'/'`; the
result is the index of the dot, if the loop returns. -/
def lastDot (path : Str) : Nat → Option (Option Nat)
  | 0 => some none
  | i + 1 => do
    let c ← path[i]?
    if c = ch '.' then some (some i)
    else if c = slash then some none
    else lastDot path i

/-- lib/path.fu:28-30, 37-39: `for (mut i = …; i --> 0; )` with the `return` on `'/'`. -/
def lastSlash (path : Str) : Nat → Option (Option Nat)
  | 0 => some none
  | i + 1 => do
    let c ← path[i]?
    if c = slash then some (some i) else lastSlash path i

/-- lib/path.fu:2-12 `ext`. -/
def ext (path : Str) : Option Str := do
  match ← lastDot path path.length with
  | some i => some (path.drop i)
  | none => some []

/-- lib/path.fu:14-24 `noext`. -/
def noext (path : Str) : Option Str := do
  match ← lastDot path path.length with
  | some i => some (path.take i)
  | none => some []

/-- lib/path.fu:26-33 `dirname`.  The loop starts at `path.len - 1`; for an empty path that is -1 and the loop does not
run, as with 0. -/
def dirname (path : Str) : Option Str := do
  match ← lastSlash path (path.length - 1) with
  | some i => some (path.take (i + 1))
  | none => some []

/-- lib/path.fu:35-42 `filename`. -/
def filename (path : Str) : Option Str := do
  match ← lastSlash path path.length with
  | some i => some (path.drop (i + 1))
  | none => some path

/-- lib/path.fu:48-52: the loop that drops `.` and empty inner parts, from the right. -/
def pass1 (path : List Str) : Nat → Option (List Str)
  | 0 => some path
  | i + 1 => do
    let part ← path[i]?
    if part = str "." ∨ (part = [] ∧ i > 0 ∧ i + 1 < path.length) then pass1 (path.eraseIdx i) i
    else pass1 path i

/-- lib/path.fu:54-60: the loop that resolves `..`.  `path.splice(--i, 2)` removes the part before and the `..`; the loop
starts at `i = 1` and keeps `i > 0`. -/
def pass2 (path : List Str) (i : Nat) : Option (List Str) :=
  if h : i < path.length then
    if path[i] = str ".." then
      if i = 0 then none
      else
        let path' := path.take (i - 1) ++ path.drop (i + 1)
        let i' := i - 1
        pass2 path' ((if i' ≠ 0 then i' - 1 else i') + 1)
    else pass2 path (i + 1)
  else some path
termination_by 2 * path.length - i
decreasing_by
  · simp only [List.length_append, List.length_take, List.length_drop]
    split <;> omega
  · omega

/-- lib/path.fu:44-63 `normalize`.  `junk` is the memory that `join` leaves uninitialised before writing it. -/
def normalize (junk : Nat → Str) (p : Str) : Option Str := do
  let path ← Prelude.split p (.one slash)
  let path ← pass1 path path.length
  let path ← pass2 path 1
  Prelude.join junk path (.one slash)

/-- lib/path.fu:70-78: the body of the comparison loop of `relative`: `.inr` is `break`, with the value of `same`. -/
def sameStep (from_ to : Str) (i same : Nat) : Option (Nat ⊕ Nat) := do
  let a ← from_[i]?
  let b ← to[i]?
  if b ≠ a then some (.inr same)
  else some (.inl (if b = slash then i + 1 else same))

/-- lib/path.fu:67-79. -/
def sameLen (from_ to : Str) : Option Nat := do
  let min := if from_.length < to.length then from_.length else to.length
  match ← forBrk 0 min 0 (sameStep from_ to) with
  | .inl n => some n
  | .inr n => some n

/-- lib/path.fu:82-84: the body of the loop. -/
def upStep (from_ : Str) (i : Nat) (res : Str) : Option Str := do
  let c ← from_[i]?
  some (if c = slash then res ++ str "../" else res)

/-- lib/path.fu:65-88 `relative`. -/
def relative (from_ to : Str) : Option Str := do
  let same ← sameLen from_ to
  let res ← forUp same from_.length [] (upStep from_)
  some (res ++ to.drop same)

/-- lib/path.fu:90-95 `join`. -/
def join (junk : Nat → Str) (a b : Str) : Option Str := do
  if ← Prelude.starts b (.one slash) then normalize junk b
  else if ← Prelude.ends a (.one slash) then normalize junk (a ++ b)
  else normalize junk ((a ++ [slash]) ++ b)

end Verif.Path
