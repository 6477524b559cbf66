import Verif.Basic
/-!
# Model of lib/unicode.fu

A code point is a `u32`; all the values computed here stay far below 2^32, so natural numbers stand for them.  A byte is
converted to `u32` without sign extension (`utf8[i].u32` is emitted as `fu::u8`).  `none` is a read past the end.
-/
namespace Verif.Unicode

/-- `byte(x)`: the low 8 bits. -/
def byteOf (n : Nat) : Byte := BitVec.ofNat 8 n

/-- lib/unicode.fu:7-36 `utf8(codepoint)`. -/
def utf8 (c : Nat) : Str :=
  if c ≤ 0x7f then [byteOf c]
  else if c ≤ 0x07ff then [byteOf ((c >>> 6 &&& 0x1f) ||| 0xc0), byteOf ((c >>> 0 &&& 0x3f) ||| 0x80)]
  else if c ≤ 0xffff then
    [byteOf ((c >>> 12 &&& 0x0f) ||| 0xe0), byteOf ((c >>> 6 &&& 0x3f) ||| 0x80), byteOf ((c >>> 0 &&& 0x3f) ||| 0x80)]
  else if c ≤ 0x10ffff then
    [byteOf ((c >>> 18 &&& 0x07) ||| 0xf0), byteOf ((c >>> 12 &&& 0x3f) ||| 0x80), byteOf ((c >>> 6 &&& 0x3f) ||| 0x80),
      byteOf ((c >>> 0 &&& 0x3f) ||| 0x80)]
  else []

/-- One callback of `codepoints`: `each(c, i)` or `error(i)`. -/
inductive Ev
  | each (c i : Nat) | error (i : Nat)
  deriving DecidableEq, Repr

/-- lib/unicode.fu:49-57: the number of continuation bytes that the lead byte announces; `none` is
`break :BREAK_ON_ERROR`. -/
def extraOf (c : Nat) : Option Nat :=
  if c &&& 0xe0 = 0xc0 then some 1
  else if c &&& 0xf0 = 0xe0 then some 2
  else if c &&& 0xf8 = 0xf0 then some 3
  else none

/-- lib/unicode.fu:67-77 `do { i++; … } while (i < i1)`.  The result is the value of `i` and the code point, or no code
point at `break :BREAK_ON_ERROR`. -/
def contLoop (s : Str) (i i1 c : Nat) : Option (Nat × Option Nat) :=
  match s[i + 1]? with
  | none => none
  | some b =>
    if b.toNat &&& 0xc0 ≠ 0x80 then some (i + 1, none)
    else
      let c' := c <<< 6 ||| (b.toNat &&& 0xffffff3f)
      if i + 1 < i1 then contLoop s (i + 1) i1 c' else some (i + 1, some c')
termination_by i1 - i

/-- lib/unicode.fu:42-92 the body of the loop at `i`: the value of `i` at its end and the callback it makes. -/
def stepAt (s : Str) (i : Nat) : Option (Nat × Ev) :=
  match s[i]? with
  | none => none
  | some b =>
    let c := b.toNat
    if c ≥ 0x80 then
      match extraOf c with
      | none => some (i, .error i)
      | some extra =>
        let c' := c &&& (0x3f >>> extra)
        let i1 := i + extra
        if s.length < i1 then some (i, .error i)
        else
          match contLoop s i i1 c' with
          | none => none
          | some (i', none) => some (i', .error i)
          | some (i', some cp) => some (i', .each cp i')
    else some (i, .each c i)

theorem contLoop_ge {s : Str} {i i1 c : Nat} {r} (h : contLoop s i i1 c = some r) : i ≤ r.1 := by
  fun_induction contLoop s i i1 c with
  | case1 => exact absurd h (by simp)
  | case2 i c b hb hc => injection h with h; subst h; simp
  | case3 i c b hb hc c' hlt ih => have := ih h; omega
  | case4 i c b hb hc c' hlt => injection h with h; subst h; simp

theorem stepAt_ge {s : Str} {i : Nat} {r} (h : stepAt s i = some r) : i ≤ r.1 := by
  unfold stepAt at h
  split at h
  · exact absurd h (by simp)
  · dsimp only at h
    split at h
    · split at h
      · injection h with h; subst h; simp
      · split at h
        · injection h with h; subst h; simp
        · split at h
          · exact absurd h (by simp)
          · next e => injection h with h; subst h; exact contLoop_ge e
          · next e => injection h with h; subst h; exact contLoop_ge e
    · injection h with h; subst h; simp

/-- lib/unicode.fu:38-94 `codepoints`, from position `i`: the callbacks in order. -/
def codepointsFrom (s : Str) (i : Nat) : Option (List Ev) :=
  if i < s.length then
    match h : stepAt s i with
    | none => none
    | some (i', ev) =>
      match codepointsFrom s (i' + 1) with
      | none => none
      | some evs => some (ev :: evs)
  else some []
termination_by s.length - i
decreasing_by have := stepAt_ge h; simp only at this; omega

/-- lib/unicode.fu:38-94 `codepoints`. -/
def codepoints (s : Str) : Option (List Ev) := codepointsFrom s 0

end Verif.Unicode
