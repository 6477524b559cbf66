import Verif.Basic
/-!
# Files and descriptors - lib/file.fu (`write`, `read`), lib/FD.fu (`read`, `read_exhaustive`, `write`)

The operating system is a schedule: the answer to the k-th call, for all k.  It decides how many bytes a call transfers,
which may be fewer than asked for.
-/
namespace Verif.Fd
open Verif

/-- an answer: that many bytes were transferred (never more than asked for or than there are), or a failure with `errno` -/
inductive Ans where
  | count (n : Nat)
  | fail (errno : Int)
  deriving DecidableEq

abbrev Os := Nat → Ans

/-- `ERANGE`, `EINTR`, `EAGAIN` of <errno.h> (Linux) -/
def ERANGE : Int := 34
@[inherit_doc ERANGE] def EINTR : Int := 4
@[inherit_doc ERANGE] def EAGAIN : Int := 11

/-! ### lib/file.fu `write` -/

/-- lib/file.fu:34-47: the loop, from call `k` on; `file` is what the file holds; gives the file and `err` -/
def writeLoop (os : Os) (k : Nat) (buf file : Str) : Str × Int :=
  if _h : buf.length > 0 then
    match os k with
    | .fail e => (file, e)
    | .count n =>
      if _h2 : min n buf.length = 0 then (file, 0)
      else writeLoop os (k + 1) (buf.drop (min n buf.length)) (file ++ buf.take (min n buf.length))
  else (file, 0)
termination_by buf.length
decreasing_by rw [List.length_drop]; omega

/-- lib/file.fu:11-80 (`write`): the file's contents afterwards if it could be opened, and the result; `openErr` and
`closeErr` are what `open` and `close` fail with, 0 if they do not.  The path is left out. -/
def fileWrite (os : Os) (openErr closeErr : Int) (data : Str) : Option Str × Int :=
  if openErr ≠ 0 then (none, openErr)
  else
    let r := writeLoop os 0 data []
    (some r.1, if closeErr ≠ 0 ∧ r.2 = 0 then closeErr else r.2)

/-! ### lib/file.fu `read` -/

/-- bytes stored into memory; `none`: out of bounds -/
def store (mem : Str) (at_ : Nat) (xs : Str) : Option Str :=
  if at_ + xs.length ≤ mem.length then some (mem.take at_ ++ xs ++ mem.drop (at_ + xs.length)) else none

/-- lib/file.fu:187-201: the loop, from call `k` on.  `rest` is what is left of the file, `mem` the memory of the output -
all of its capacity -, `buf` where in it the bytes go.  Gives the memory, `len0` and `err`. -/
def readLoop (os : Os) (check : Nat) (len1 buf : Nat) (k : Nat) (rest mem : Str) (len0 : Nat) : Option (Str × Nat × Int) :=
  if _h : len1 - len0 > 0 then
    match os k with
    | .fail e => some (mem, len0, e)
    | .count n =>
      let count := min n (min (len1 - len0 + check) rest.length)
      if _h2 : count = 0 then some (mem, len0, 0)
      else
        match store mem buf (rest.take count) with
        | none => none
        | some mem => readLoop os check len1 buf (k + 1) (rest.drop count) mem (len0 + count)
  else some (mem, len0, 0)
termination_by len1 - len0
decreasing_by omega

/-- lib/file.fu:89-257 (`read`), once `stat` and `open` have succeeded and the sizes are in range: `size` is what `stat` (or
the caller) said, `content` what the file holds, `old` the output so far, `spare` the memory after it once it has grown
(at least `size` bytes).  Gives the output and the result. -/
def fileRead (os : Os) (closeErr : Int) (size : Nat) (content old spare : Str) : Option (Str × Int) :=
  let mem := old ++ spare
  let len1 := old.length + size
  let check := if mem.length > len1 then 1 else 0
  (readLoop os check len1 old.length 0 content mem old.length).map fun (mem, len0, err) =>
    let err := if closeErr ≠ 0 ∧ err = 0 then closeErr else err
    if len0 ≠ len1 then (mem.take len0, ERANGE) else (mem.take len1, err)

/-! ### lib/FD.fu -/

/-- lib/FD.fu:23-45 (`write`): the bytes that went out, `bytes_written` and the result -/
def fdWrite (a : Ans) (data : Str) : Str × Nat × Int :=
  match a with
  | .count n => (data.take n, min n data.length, 0)
  | .fail e => ([], 0, e)

/-- lib/FD.fu:57-66: how much one `read` asks for, given the spare capacity of the buffer -/
def outCapa (spare : Int) : Nat := if spare > 1024 then spare.toNat else 65536

/-- lib/FD.fu:92-115 (`read_exhaustive`) with `read`, lib/FD.fu:47-87, in it: at most `fuel` turns from call `k` on.
`stream` is what the other side has sent and nobody has read yet; `spare k` the spare capacity of the buffer then.  Gives
what is left of the stream, the buffer, `total_bytes_read` and the result. -/
def readExhaustive (os : Os) (spare : Nat → Int) : Nat → Nat → Str → Str → Nat → Option (Str × Str × Nat × Int)
  | 0, _, _, _, _ => none
  | fuel + 1, k, stream, buffer, total =>
    match os k with
    | .fail e => if e ≠ EINTR then some (stream, buffer, total, e) else readExhaustive os spare fuel (k + 1) stream buffer total
    | .count n =>
      let got := stream.take (min n (outCapa (spare k)))
      if got.length = outCapa (spare k) then
        readExhaustive os spare fuel (k + 1) (stream.drop got.length) (buffer ++ got) (total + got.length)
      else some (stream.drop got.length, buffer ++ got, total + got.length, 0)

end Verif.Fd
