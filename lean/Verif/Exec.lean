import Verif.Basic
/-!
# Running a command and taking its output: lib/exec.fu

The size of the string is an `int` in the source; here it is a natural number (2 GB of output are more than a string takes:
`append_copy` fails then).
-/
namespace Verif.Exec
open Verif

/-- What the system does: `popen` gives a pipe or an error number; the `k`-th `fread` gives `count k` bytes, or as many as
were asked for or are left if those are fewer (0: the end, or an error); `pclose` gives the status or -1 with an error
number; `spare k` is the memory the string has behind its content after the `k`-th `append_copy`. -/
structure Os where
  popen : Option Int
  count : Nat → Nat
  pclose : Except Int Int
  spare : Nat → Str

/-- lib/exec.fu:37 `BUF_SIZE`. -/
def BUF_SIZE : Nat := 64 * 1024

/-- A string: its content, and the memory behind that. -/
structure Vec where
  content : Str
  spare : Str
deriving DecidableEq, Repr

/-- What reads put at `at'` of the memory of the string; out of bounds is a fault. -/
def store (v : Vec) (at' : Nat) (xs : Str) : Option Str :=
  let mem := v.content ++ v.spare
  if at' + xs.length ≤ mem.length then some (mem.take at' ++ xs ++ mem.drop (at' + xs.length)) else none

/-- lib/exec.fu:41-63: the loop from the `k`-th read on; `n` is more than the reads that can still give something.
`stream` is what is left in the pipe, `size` the variable of line 40. -/
def loop (os : Os) : Nat → Nat → Str → Vec → Nat → Option Vec
  | 0, _, _, _, _ => none
  | n + 1, k, stream, v, size =>
    let avail := (v.content.length + v.spare.length : Int) - size
    let direct := avail > 0 ∧ avail.toNat > BUF_SIZE
    let capa := if direct then avail.toNat else BUF_SIZE
    let count := min (os.count k) (min capa stream.length)
    if count = 0 then some v
    else
      let size := size + count
      if direct then do
        let mem ← store v (size - count) (stream.take count)
        loop os n (k + 1) (stream.drop count) ⟨mem.take size, mem.drop size⟩ size
      else loop os n (k + 1) (stream.drop count) ⟨v.content ++ stream.take count, os.spare k⟩ size

/-- What the system is given as a command: a C string. -/
def cstr (s : Str) : Str := s.takeWhile (· != 0)

/-- lib/exec.fu:3-68 `exec`: the error, the status and the output.  `run` is what a command writes. -/
def exec (os : Os) (run : Str → Str) (cmd : Str) (stdout : Vec) : Option (Int × Int × Vec) :=
  let cmd := cmd ++ [0#8]
  match os.popen with
  | some errno => some (errno, -1, stdout)
  | none => do
    let stream := run (cstr cmd)
    let out ← loop os (stream.length + 1) 0 stream stdout stdout.content.length
    match os.pclose with
    | .ok status => some (0, status, out)
    | .error errno => some (errno, -1, out)

end Verif.Exec
