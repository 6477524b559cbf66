import Verif.Basic
import Verif.Loop
/-!
# Model of `src/levenshtein.fu`

Lengths and costs are `i32` in the code; they are natural numbers here (no overflow below 2^31 items).
-/
namespace Verif.Levenshtein
open Verif

/-- src/levenshtein.fu:18-24: the inner loop over `ia`; the state is `(cache, d0, result)`. -/
def inner (a : Str) (code : Byte) (cache : List Nat) (ib : Nat) : Option (List Nat × Nat × Nat) :=
  forUp 0 a.length (cache, ib, ib) fun ia (cache, d0, result) => do
    let x ← a[ia]?
    let d1 := if code = x then d0 else d0 + 1
    let d0 ← cache[ia]?
    let result := min (min (result + 1) (d0 + 1)) d1
    some (cache.set ia result, d0, result)

/-- src/levenshtein.fu:4-28 `levenshtein_NM`. -/
def levNM (a b : Str) : Option Nat :=
  if a.length = 0 then some b.length
  else if b.length = 0 then some a.length
  else do
    let cache := (List.range a.length).map (· + 1)
    let (_, result) ← forUp 0 b.length (cache, 0) fun ib (cache, _) => do
      let code ← b[ib]?
      let (cache, _, result) ← inner a code cache ib
      some (cache, result)
    some result

/-- src/levenshtein.fu:33-37: length of the common prefix. -/
def commonPrefix (a b : Str) : Option Nat := do
  match ← forBrk 0 (min a.length b.length) () fun i () => do
      let x ← a[i]?
      let y ← b[i]?
      some (if x ≠ y then .inr i else .inl ()) with
  | .inr i => some i
  | .inl () => some (min a.length b.length)

/-- src/levenshtein.fu:43-48: `(a_suffix, b_suffix)` once the common suffix is gone. -/
def trimSuffix (a b : Str) : Nat → Nat → Option (Nat × Nat)
  | i + 1, j + 1 => do
    let x ← a[i]?
    let y ← b[j]?
    if x ≠ y then some (i + 1, j + 1) else trimSuffix a b i j
  | i, j => some (i, j)

/-- src/levenshtein.fu:30-56 `levenshtein`. -/
def levenshtein (a b : Str) : Option Nat := do
  let p ← commonPrefix a b
  let a := a.drop p
  let b := b.drop p
  let (i, j) ← trimSuffix a b a.length b.length
  levNM (a.take i) (b.take j)

end Verif.Levenshtein
